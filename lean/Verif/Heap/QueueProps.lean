import Verif.Heap.Props

/-! Property theorems C172 (see properties.jsonl): the heap as a double-ended priority queue. -/
namespace Verif.Heap
open Verif Spec

variable {α : Type}

/-- A client that calls `top()` before each `popTop()` and `bottom()` before each `popBottom()`, min_max_heap.h:81-125, and keeps the results in order. -/
def trace (cmp : α → α → Bool) : List (Op α) → Vec α → Outcome (List α)
  | [], _ => .ok []
  | .push x :: t, v => do
    let v ← push cmp v x
    trace cmp t v
  | .popTop :: t, v => do
    let x ← top v
    let v ← popTop cmp v
    let l ← trace cmp t v
    return x :: l
  | .popBottom :: t, v => do
    let x ← bottom cmp v
    let v ← popBottom cmp v
    let l ← trace cmp t v
    return x :: l

/-- The results of a history of a double-ended priority queue with the elements `s`. -/
inductive Queue (cmp : α → α → Bool) : Multiset α → List (Op α) → List α → Prop
  | nil (s) : Queue cmp s [] []
  | push {s x h l} : Queue cmp (x ::ₘ s) h l → Queue cmp s (.push x :: h) l
  | popTop {s x h l} : IsFirst cmp (x ::ₘ s) x → Queue cmp s h l → Queue cmp (x ::ₘ s) (.popTop :: h) (x :: l)
  | popBottom {s x h l} : IsLast cmp (x ::ₘ s) x → Queue cmp s h l → Queue cmp (x ::ₘ s) (.popBottom :: h) (x :: l)

theorem Queue.push_inv {cmp : α → α → Bool} {s : Multiset α} {x : α} {h : List (Op α)} {l : List α} (q : Queue cmp s (.push x :: h) l) : Queue cmp (x ::ₘ s) h l := by
  cases q with
  | push q => exact q

theorem Queue.popTop_inv {cmp : α → α → Bool} {s : Multiset α} {h : List (Op α)} {l : List α} (q : Queue cmp s (.popTop :: h) l) :
    ∃ x s' l', s = x ::ₘ s' ∧ l = x :: l' ∧ IsFirst cmp s x ∧ Queue cmp s' h l' := by
  cases q with
  | popTop hx q => exact ⟨_, _, _, rfl, rfl, hx, q⟩

theorem Queue.popBottom_inv {cmp : α → α → Bool} {s : Multiset α} {h : List (Op α)} {l : List α} (q : Queue cmp s (.popBottom :: h) l) :
    ∃ x s' l', s = x ::ₘ s' ∧ l = x :: l' ∧ IsLast cmp s x ∧ Queue cmp s' h l' := by
  cases q with
  | popBottom hx q => exact ⟨_, _, _, rfl, rfl, hx, q⟩

/-- The same history with the ends exchanged. -/
def Op.rev : Op α → Op α
  | .push x => .push x
  | .popTop => .popBottom
  | .popBottom => .popTop

/-- The opposite comparator. -/
def opposite (cmp : α → α → Bool) : α → α → Bool := fun x y => cmp y x

theorem StrictWeak.opposite {cmp : α → α → Bool} (h : StrictWeak cmp) : StrictWeak (Heap.opposite cmp) :=
  ⟨h.irrefl, fun a b c h1 h2 => h.trans c b a h2 h1, fun a b c h1 h2 => h.negTrans c b a h2 h1⟩

theorem NoTies.opposite {cmp : α → α → Bool} {s : Multiset α} (h : NoTies cmp s) : NoTies (Heap.opposite cmp) s :=
  fun x y t e he => h x y t e ⟨he.2, he.1⟩

theorem pushed_rev (h : List (Op α)) : pushed (h.map Op.rev) = pushed h := by
  induction h with
  | nil => rfl
  | cons o h ih => cases o <;> simp [pushed, Op.rev, ih]

theorem safe_rev (h : List (Op α)) : ∀ n, Safe n (h.map Op.rev) ↔ Safe n h := by
  induction h with
  | nil => intro n; exact Iff.rfl
  | cons o h ih => intro n; cases o <;> simp [Safe, Op.rev, ih]

theorem Queue.rev {cmp : α → α → Bool} {s : Multiset α} {h : List (Op α)} {l : List α} (q : Queue cmp s h l) : Queue (opposite cmp) s (h.map Op.rev) l := by
  induction q with
  | nil s => exact .nil s
  | push _ ih => exact .push ih
  | popTop hx _ ih => exact .popBottom hx ih
  | popBottom hx _ ih => exact .popTop hx ih

/-- A history with too many removals. -/
theorem trace_abort (cmp : α → α → Bool) (h : List (Op α)) : ∀ v : Vec α, ¬ Safe v.len h → trace cmp h v = .error .abort := by
  induction h with
  | nil => intro v hs; exact absurd trivial hs
  | cons o h ih =>
    intro v hs
    cases o with
    | push x =>
      obtain ⟨v', e1, e2, -⟩ := push_content cmp v x
      unfold trace
      rw [e1, bind_ok]
      exact ih v' (by rw [e2]; exact hs)
    | popTop =>
      by_cases hl : v.len = 0
      · unfold trace
        rw [((C19_peek cmp v).1 hl).1]
        rfl
      · obtain ⟨x, v', e1, e2, e3, -⟩ := popTop_content cmp v hl
        unfold trace
        rw [e1, bind_ok, e2, bind_ok, ih v' (by rw [e3]; exact fun hh => hs ⟨by omega, hh⟩)]
        rfl
    | popBottom =>
      by_cases hl : v.len = 0
      · unfold trace
        rw [((C19_peek cmp v).1 hl).2.1]
        rfl
      · obtain ⟨x, v', e1, e2, e3, -⟩ := popBottom_content cmp v hl
        unfold trace
        rw [e1, bind_ok, e2, bind_ok, ih v' (by rw [e3]; exact fun hh => hs ⟨by omega, hh⟩)]
        rfl

theorem trace_queue {β : Type} [LinearOrder β] (key : α → β) (cmp : α → α → Bool) (hc : ∀ x y, cmp x y = true ↔ key x < key y) (h : List (Op α)) :
    ∀ v : Vec α, Ordered v.len true (fun j => key (v.val j)) → Safe v.len h → NoTies cmp (content v + pushed h) →
      ∃ l, trace cmp h v = .ok l ∧ Queue cmp (content v) h l := by
  induction h with
  | nil => intro v _ _ _; exact ⟨[], rfl, .nil _⟩
  | cons o h ih =>
    intro v ho hs ht
    have hv : NoTies cmp (content v) := NoTies.mono ht (Multiset.le_add_right _ _)
    cases o with
    | push x =>
      obtain ⟨v', e1, e2, e3⟩ := push_content cmp v x
      obtain ⟨v1, f1, f2⟩ := push_ordered key cmp hc v x ho
      obtain rfl := Except.ok.inj (f1.symm.trans e1)
      obtain ⟨l, d1, d2⟩ := ih v1 f2 (by rw [e2]; exact hs) (by
        rw [e3, Multiset.cons_add, ← Multiset.add_cons]; exact ht)
      refine ⟨l, ?_, .push (e3 ▸ d2)⟩
      unfold trace
      rw [e1, bind_ok, d1]
    | popTop =>
      have hl : v.len ≠ 0 := by have := hs.1; omega
      obtain ⟨x, v', e1, e2, e3, e4⟩ := popTop_content cmp v hl
      obtain ⟨x', g1, g2⟩ := top_ordered key cmp hc v ho hl
      obtain rfl := Except.ok.inj (g1.symm.trans e1)
      obtain ⟨v1, f1, f2⟩ := popTop_ordered key cmp hc v ho hl (noTies_key hc hv)
      obtain rfl := Except.ok.inj (f1.symm.trans e2)
      obtain ⟨l, d1, d2⟩ := ih v1 f2 (by rw [e3]; exact hs.2) (NoTies.mono ht (by
        rw [e4]; exact Multiset.add_le_add_right (Multiset.le_cons_self _ _)))
      refine ⟨x' :: l, ?_, ?_⟩
      · unfold trace
        rw [e1, bind_ok, e2, bind_ok, d1]
        rfl
      · rw [e4] at g2 ⊢
        exact .popTop g2 d2
    | popBottom =>
      have hl : v.len ≠ 0 := by have := hs.1; omega
      obtain ⟨x, v', e1, e2, e3, e4⟩ := popBottom_content cmp v hl
      obtain ⟨x', g1, g2⟩ := bottom_ordered key cmp hc v ho hl
      obtain rfl := Except.ok.inj (g1.symm.trans e1)
      obtain ⟨v1, f1, f2⟩ := popBottom_ordered key cmp hc v ho hl
      obtain rfl := Except.ok.inj (f1.symm.trans e2)
      obtain ⟨l, d1, d2⟩ := ih v1 f2 (by rw [e3]; exact hs.2) (NoTies.mono ht (by
        rw [e4]; exact Multiset.add_le_add_right (Multiset.le_cons_self _ _)))
      refine ⟨x' :: l, ?_, ?_⟩
      · unfold trace
        rw [e1, bind_ok, e2, bind_ok, d1]
        rfl
      · rw [e4] at g2 ⊢
        exact .popBottom g2 d2

/-- Without ties the first element is determined. -/
theorem first_unique {cmp : α → α → Bool} {s t : Multiset α} {x y : α} (h : NoTies cmp (x ::ₘ s)) (e : x ::ₘ s = y ::ₘ t)
    (h1 : cmp x y = false) (h2 : cmp y x = false) : x = y ∧ s = t := by
  classical
  by_cases hxy : x = y
  · subst hxy
    exact ⟨rfl, (Multiset.cons_inj_right x).1 e⟩
  · exfalso
    have hy : y ∈ s := by
      have : y ∈ x ::ₘ s := e ▸ Multiset.mem_cons_self y t
      exact (Multiset.mem_cons.1 this).resolve_left (Ne.symm hxy)
    obtain ⟨u, rfl⟩ := Multiset.exists_cons_of_mem hy
    exact h x y u rfl ⟨h1, h2⟩

/-- Without ties the results of the queue are determined. -/
theorem Queue.unique {cmp : α → α → Bool} {s : Multiset α} {h : List (Op α)} {l l' : List α} (q : Queue cmp s h l) :
    NoTies cmp (s + pushed h) → Queue cmp s h l' → l = l' := by
  induction q generalizing l' with
  | nil s => intro _ q'; cases q'; rfl
  | push q ih =>
    intro ht q'
    cases q' with
    | push q' => exact ih (by rw [Multiset.cons_add, ← Multiset.add_cons]; exact ht) q'
  | @popTop s x h l hx q ih =>
    intro ht q'
    generalize hs : x ::ₘ s = s1 at q'
    cases q' with
    | @popTop t y _ l1 hy q1 =>
      obtain ⟨rfl, rfl⟩ := first_unique (NoTies.mono ht (Multiset.le_add_right _ _)) hs (hy.2 x (hs ▸ Multiset.mem_cons_self x s)) (hx.2 y (hs ▸ Multiset.mem_cons_self y t))
      rw [ih (NoTies.mono ht (Multiset.add_le_add_right (Multiset.le_cons_self _ _))) q1]
  | @popBottom s x h l hx q ih =>
    intro ht q'
    generalize hs : x ::ₘ s = s1 at q'
    cases q' with
    | @popBottom t y _ l1 hy q1 =>
      obtain ⟨rfl, rfl⟩ := first_unique (NoTies.mono ht (Multiset.le_add_right _ _)) hs (hx.2 y (hs ▸ Multiset.mem_cons_self y t)) (hy.2 x (hs ▸ Multiset.mem_cons_self x s))
      rw [ih (NoTies.mono ht (Multiset.add_le_add_right (Multiset.le_cons_self _ _))) q1]

/-- C172, full statement: every history gives the results of a double-ended priority queue. -/
def C172_statement : Prop :=
  ∀ (α : Type) (cmp : α → α → Bool) (z : α), StrictWeak cmp → ∀ h : List (Op α), Safe 0 h → ∃ l, trace cmp h (Vec.empty z) = .ok l ∧ Queue cmp 0 h l

theorem content_empty (z : α) : content (Vec.empty z) = 0 := by simp [content, Vec.empty]

/-- **C172** when no two of the pushed elements are equivalent: the results are those of the queue, and only those are. Missing: ties. -/
theorem C172_queue_partial (cmp : α → α → Bool) (z : α) (hw : StrictWeak cmp) (h : List (Op α)) (ht : NoTies cmp (pushed h)) :
    (Safe 0 h → ∃ l, trace cmp h (Vec.empty z) = .ok l ∧ ∀ l', Queue cmp 0 h l' ↔ l' = l) ∧ (¬ Safe 0 h → trace cmp h (Vec.empty z) = .error .abort) := by
  refine ⟨fun hs => ?_, fun hs => trace_abort cmp h _ hs⟩
  obtain ⟨β, _, key, hc⟩ := key_exists hw
  obtain ⟨l, h1, h2⟩ := trace_queue key cmp hc h (Vec.empty z) (ordered_empty key z) hs (by rw [content_empty, Multiset.zero_add]; exact ht)
  rw [content_empty] at h2
  refine ⟨l, h1, fun l' => ⟨fun q => (h2.unique (by rwa [Multiset.zero_add]) q).symm, ?_⟩⟩
  rintro rfl
  exact h2

/-- **C172** with ties, for histories that remove only at the bottom. -/
theorem C172_bottom_partial (cmp : α → α → Bool) (z : α) (hw : StrictWeak cmp) (h : List (Op α)) (hs : Safe 0 h) (ht : Op.popTop ∉ h) :
    ∃ l, trace cmp h (Vec.empty z) = .ok l ∧ Queue cmp 0 h l := by
  obtain ⟨β, _, key, hc⟩ := key_exists hw
  have main : ∀ (h : List (Op α)) (v : Vec α), Ordered v.len true (fun j => key (v.val j)) → Safe v.len h → Op.popTop ∉ h →
      ∃ l, trace cmp h v = .ok l ∧ Queue cmp (content v) h l := by
    intro h
    induction h with
    | nil => intro v _ _ _; exact ⟨[], rfl, .nil _⟩
    | cons o h ih =>
      intro v ho hs ht
      rw [List.mem_cons, not_or] at ht
      cases o with
      | push x =>
        obtain ⟨v', e1, e2, e3⟩ := push_content cmp v x
        obtain ⟨v1, f1, f2⟩ := push_ordered key cmp hc v x ho
        obtain rfl := Except.ok.inj (f1.symm.trans e1)
        obtain ⟨l, d1, d2⟩ := ih v1 f2 (by rw [e2]; exact hs) ht.2
        refine ⟨l, ?_, .push (e3 ▸ d2)⟩
        unfold trace
        rw [e1, bind_ok, d1]
      | popTop => exact absurd rfl ht.1
      | popBottom =>
        have hl : v.len ≠ 0 := by have := hs.1; omega
        obtain ⟨x, v', e1, e2, e3, e4⟩ := popBottom_content cmp v hl
        obtain ⟨x', g1, g2⟩ := bottom_ordered key cmp hc v ho hl
        obtain rfl := Except.ok.inj (g1.symm.trans e1)
        obtain ⟨v1, f1, f2⟩ := popBottom_ordered key cmp hc v ho hl
        obtain rfl := Except.ok.inj (f1.symm.trans e2)
        obtain ⟨l, d1, d2⟩ := ih v1 f2 (by rw [e3]; exact hs.2) ht.2
        refine ⟨x' :: l, ?_, ?_⟩
        · unfold trace
          rw [e1, bind_ok, e2, bind_ok, d1]
          rfl
        · rw [e4] at g2 ⊢
          exact .popBottom g2 d2
  have := main h (Vec.empty z) (ordered_empty key z) hs ht
  rwa [content_empty] at this

/-- C172: with the opposite comparator the two ends are exchanged. -/
theorem C172_opposite_partial (cmp : α → α → Bool) (z z' : α) (hw : StrictWeak cmp) (h : List (Op α)) (ht : NoTies cmp (pushed h)) :
    trace (opposite cmp) (h.map Op.rev) (Vec.empty z') = trace cmp h (Vec.empty z) := by
  have hr := C172_queue_partial (opposite cmp) z' (StrictWeak.opposite hw) (h.map Op.rev) (by rw [pushed_rev]; exact NoTies.opposite ht)
  rw [safe_rev] at hr
  have hq := C172_queue_partial cmp z hw h ht
  by_cases hs : Safe 0 h
  · obtain ⟨l, e1, e2⟩ := hq.1 hs
    obtain ⟨l', f1, f2⟩ := hr.1 hs
    rw [e1, f1, (f2 l).1 (((e2 l).2 rfl).rev)]
  · rw [hq.2 hs, hr.2 hs]

theorem Queue.swap_push {cmp : α → α → Bool} (h1 : List (Op α)) {h2 : List (Op α)} {x y : α} : ∀ {s : Multiset α} {l : List α},
    Queue cmp s (h1 ++ .push x :: .push y :: h2) l → Queue cmp s (h1 ++ .push y :: .push x :: h2) l := by
  induction h1 with
  | nil =>
    intro s l q
    refine .push (.push ?_)
    rw [Multiset.cons_swap]
    exact q.push_inv.push_inv
  | cons o h1 ih =>
    intro s l q
    cases q with
    | push q => exact .push (ih q)
    | popTop hx q => exact .popTop hx (ih q)
    | popBottom hx q => exact .popBottom hx (ih q)

theorem safe_swap_push (h1 : List (Op α)) {h2 : List (Op α)} {x y : α} : ∀ n, Safe n (h1 ++ .push x :: .push y :: h2) ↔ Safe n (h1 ++ .push y :: .push x :: h2) := by
  induction h1 with
  | nil => intro n; exact Iff.rfl
  | cons o h1 ih => intro n; cases o <;> simp [Safe, ih]

/-- C172: the order of insertions without a removal in between has no influence on any later result. -/
theorem C172_order_partial (cmp : α → α → Bool) (z : α) (hw : StrictWeak cmp) (h1 h2 : List (Op α)) (x y : α)
    (ht : NoTies cmp (pushed (h1 ++ .push x :: .push y :: h2))) :
    trace cmp (h1 ++ .push y :: .push x :: h2) (Vec.empty z) = trace cmp (h1 ++ .push x :: .push y :: h2) (Vec.empty z) := by
  have hr := C172_queue_partial cmp z hw (h1 ++ .push y :: .push x :: h2) (by
    rw [pushed_append] at ht ⊢
    simp only [pushed] at ht ⊢
    rwa [Multiset.cons_swap])
  rw [safe_swap_push] at hr
  have hq := C172_queue_partial cmp z hw _ ht
  by_cases hs : Safe 0 (h1 ++ .push x :: .push y :: h2)
  · obtain ⟨l, e1, e2⟩ := hq.1 hs
    obtain ⟨l', f1, f2⟩ := hr.1 hs
    rw [e1, f1, (f2 l).1 (((e2 l).2 rfl).swap_push)]
  · rw [hq.2 hs, hr.2 hs]

/-- A run with ties and the one with the opposite comparator and the ends exchanged. -/
theorem ties_trace : (match trace ltNat (badBottom ++ [Op.popBottom]) (Vec.empty 0) with | .ok l => some l | .error _ => none) = some [1, 5, 1] ∧
    (match trace (opposite ltNat) ((badBottom ++ [Op.popBottom]).map Op.rev) (Vec.empty 0) with | .ok l => some l | .error _ => none) = some [1, 5, 3] := by decide +kernel

/-- The statement of C172 is false: of 1, 1, 5, 1, 1, 3, after one removal at the top and one at the bottom, the bottom is 1 and not 3; nor are the ends exchanged by the opposite
comparator. -/
theorem C172_violated : ¬ C172_statement ∧
    trace (opposite ltNat) ((badBottom ++ [Op.popBottom]).map Op.rev) (Vec.empty 0) ≠ trace ltNat (badBottom ++ [Op.popBottom]) (Vec.empty 0) := by
  have e := ties_trace
  refine ⟨fun h => ?_, fun he => ?_⟩
  · obtain ⟨l, h1, h2⟩ := h ℕ ltNat 0 ltNat_strictWeak (badBottom ++ [Op.popBottom]) (by simp [Safe, badBottom])
    rw [h1] at e
    obtain rfl : l = [1, 5, 1] := Option.some.inj e.1
    simp only [badBottom, List.cons_append, List.nil_append] at h2
    obtain ⟨a, s1, l1, e1, e2, -, q1⟩ := h2.push_inv.push_inv.push_inv.push_inv.push_inv.push_inv.popTop_inv
    obtain ⟨rfl, rfl⟩ := List.cons.inj e2
    obtain ⟨b, s2, l2, rfl, e3, -, q2⟩ := q1.popBottom_inv
    obtain ⟨rfl, rfl⟩ := List.cons.inj e3
    obtain ⟨c, s3, l3, rfl, e4, hc, -⟩ := q2.popBottom_inv
    obtain ⟨rfl, rfl⟩ := List.cons.inj e4
    have h3 : (3 : ℕ) ∈ (1 ::ₘ 5 ::ₘ 1 ::ₘ s3 : Multiset ℕ) := e1 ▸ by simp
    have h4 : (3 : ℕ) ∈ (1 ::ₘ s3 : Multiset ℕ) := by simpa using h3
    exact absurd (hc.2 3 h4) (by decide)
  · rw [he] at e
    rw [e.1] at e
    exact absurd e.2 (by decide)

-- without ties: the results, and the same ones with the opposite comparator and the ends exchanged
example : (match trace ltNat [.push 3, .push 1, .push 7, .popBottom, .push 5, .popTop, .popBottom] (Vec.empty 0) with | .ok l => some l | .error _ => none) = some [7, 1, 5] ∧
    (match trace (opposite ltNat) [.push 3, .push 1, .push 7, .popTop, .push 5, .popBottom, .popTop] (Vec.empty 0) with | .ok l => some l | .error _ => none) = some [7, 1, 5] := by
  decide +kernel

end Verif.Heap
