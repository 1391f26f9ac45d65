import Verif.Heap.WidthModel
import Verif.Heap.CountProps

/-! Property theorems C132 (see properties.jsonl): the heap with the `int` and `size_t` positions of the code. -/
namespace Verif.Heap
open Verif Spec
variable {α : Type}

theorem toSize_nat {i : ℕ} (h : i < 18446744073709551616) : Cxx.toSize (i : ℤ) = i := by
  unfold Cxx.toSize
  omega

theorem ofSize_small {i : ℕ} (h : i < 2147483648) : Cxx.ofSize i = (i : ℤ) := by
  unfold Cxx.ofSize
  rw [Int.bmod_def]
  split_ifs <;> omega

theorem childLeft_val (p : ℕ) : childLeft p = 2 * p + 1 := by
  unfold childLeft
  rw [Nat.shiftLeft_eq]
  omega

theorem childLeftW_eq {p : ℕ} (h : p < 2305843009213693952) : childLeftW p = childLeft p := by
  have := childLeft_val p
  unfold childLeft at this ⊢
  unfold childLeftW
  omega

theorem childBestW_eq (better : α → α → Bool) (v : Vec α) {i : ℕ} (h : i < 2305843009213693952) : childBestW better v i = childBest better v i := by
  unfold childBestW childBest
  have e : (childLeft i + 1) % 18446744073709551616 = childLeft i + 1 := by have := childLeft_val i; omega
  simp only [childLeftW_eq h, e]

theorem grandchildLoopW_eq (better : α → α → Bool) (v : Vec α) (n : ℕ) (j b : ℕ) (h : j + n < 18446744073709551616) :
    grandchildLoopW better v (j + n) (n + 1) j b = grandchildLoop better v n j b := by
  induction n generalizing j b with
  | zero =>
    unfold grandchildLoopW grandchildLoop
    rw [if_neg (by omega)]
  | succ n ih =>
    unfold grandchildLoopW grandchildLoop
    by_cases hj : j < v.len
    · have e : (j + 1) % 18446744073709551616 = j + 1 := by omega
      have e2 : j + (n + 1) = (j + 1) + n := by omega
      rw [if_pos ⟨by omega, hj⟩, if_pos hj, e, e2]
      simp only [ih (j + 1) _ (by omega)]
    · rw [if_neg (by omega), if_neg hj]

theorem grandchildBestW_eq (better : α → α → Bool) (v : Vec α) {i : ℕ} (h : i < 2305843009213693952) : grandchildBestW better v i = grandchildBest better v i := by
  unfold grandchildBestW grandchildBest grandchild
  rw [Nat.shiftLeft_eq]
  have e0 : (i * 2 ^ 2 + 3) % 18446744073709551616 = i * 2 ^ 2 + 3 := by omega
  have e1 : (i * 2 ^ 2 + 3 + 4) % 18446744073709551616 = i * 2 ^ 2 + 3 + 1 + 3 := by omega
  have e2 : (i * 2 ^ 2 + 3 + 1) % 18446744073709551616 = i * 2 ^ 2 + 3 + 1 := by omega
  simp only [e0, e1, e2, Nat.add_zero]
  exact grandchildLoopW_eq better v 3 _ _ (by omega)

theorem heapDownLoopW_eq (better : α → α → Bool) (cont : Bool) (fuel : ℕ) (v : Vec α) (i : ℕ) (h : v.len ≤ 2305843009213693952) :
    heapDownLoopW better cont fuel v i = heapDownLoop better cont fuel v i := by
  induction fuel generalizing v i with
  | zero => rfl
  | succ fuel ih =>
    unfold heapDownLoopW heapDownLoop
    by_cases hi : i < v.len
    · rw [if_pos hi, if_pos hi, childBestW_eq better v (by omega), grandchildBestW_eq better v (by omega)]
      refine bind_congr fun ic => bind_congr fun ig => bind_congr fun g => ?_
      by_cases hg : g = true
      · rw [if_pos hg, if_pos hg]
        cases e1 : swap v i ig with
        | error e => rfl
        | ok v1 =>
          show (fixParent better v1 ig >>= _) = (fixParent better v1 ig >>= _)
          cases e2 : fixParent better v1 ig with
          | error e => rfl
          | ok v2 => exact ih v2 ig (by rw [fixParent_len e2, swap_len e1]; exact h)
      · rw [if_neg hg, if_neg hg]
        refine bind_congr fun c => ?_
        by_cases hc : c = true
        · rw [if_pos hc, if_pos hc]
          cases e1 : swap v i ic with
          | error e => rfl
          | ok v1 =>
            show (if cont = true then _ else _) = (if cont = true then _ else _)
            rw [ih v1 ic (by rw [swap_len e1]; exact h)]
        · rw [if_neg hc, if_neg hc]
    · rw [if_neg hi, if_neg hi]

theorem error_bind {β γ : Type} (e : Err) (f : β → Outcome γ) : ((Except.error e : Outcome β) >>= f) = .error e := rfl

theorem popTopW_eq (cmp : α → α → Bool) (v : Vec α) (h : v.len ≤ 2305843009213693952) : popTopW cmp v = popTop cmp v := by
  unfold popTopW popTop
  by_cases h0 : v.len = 0
  · rw [if_pos h0, if_pos h0]
  · rw [if_neg h0, if_neg h0]
    cases e1 : swap v 0 (v.len - 1) with
    | error e => rfl
    | ok v1 =>
      refine heapDownLoopW_eq _ _ _ _ _ ?_
      show v1.len - 1 ≤ _
      rw [swap_len e1]
      omega

theorem popBottomW_eq (cmp : α → α → Bool) (v : Vec α) (h : v.len ≤ 2305843009213693952) : popBottomW cmp v = popBottom cmp v := by
  unfold popBottomW popBottom
  by_cases h0 : v.len = 0
  · rw [if_pos h0, if_pos h0]
  · rw [if_neg h0, if_neg h0]
    by_cases h1 : v.len = 1
    · rw [if_pos h1, if_pos h1]
    · rw [if_neg h1, if_neg h1, childBestW_eq _ v (by omega)]
      unfold childMax
      obtain ⟨im, e, hc, -⟩ := childBest_ok (fun a b => cmp b a) v 0
      rw [e, bind_ok, bind_ok]
      cases e1 : swap v im (v.len - 1) with
      | error e => rw [error_bind, error_bind]
      | ok v1 =>
        rw [bind_ok, bind_ok]
        unfold heapDownMaxW heapDownMax
        have a : im < 2147483648 := by omega
        have b : im < 18446744073709551616 := by omega
        rw [ofSize_small a, toSize_nat b]
        refine heapDownLoopW_eq _ _ _ _ _ ?_
        show v1.len - 1 ≤ _
        rw [swap_len e1]
        omega

theorem upLoopW_eq (cond : α → α → Bool) (fuel : ℕ) (v : Vec α) (i t : ℕ) (hi : i < 2147483648) (ht : t < v.len → t < 2147483648) :
    upLoopW cond fuel v (i : ℤ) t = (upLoop cond fuel v i t).map fun r => (r.1, (r.2 : ℤ)) := by
  induction fuel generalizing v i t with
  | zero => rfl
  | succ fuel ih =>
    unfold upLoopW upLoop
    by_cases h : t < v.len
    · rw [if_pos h, if_pos h, toSize_nat (by omega), ofSize_small (ht h)]
      cases e1 : v.get (i : ℤ) with
      | error e => rfl
      | ok x =>
        cases e2 : v.get (t : ℤ) with
        | error e => rfl
        | ok y =>
          show (if cond x y = true then _ else _) = Except.map _ (if cond x y = true then _ else _)
          by_cases hc : cond x y = true
          · rw [if_pos hc, if_pos hc]
            cases e3 : swap v i t with
            | error e => rfl
            | ok v1 =>
              refine ih v1 t _ (ht h) ?_
              by_cases hg : t > 2
              · have hh : hasGrandparent t = true := decide_eq_true hg
                rw [if_pos hh, grandparent_eq]
                have := ht h
                omega
              · have hh : ¬ hasGrandparent t = true := by unfold hasGrandparent; simpa using hg
                rw [if_neg hh]
                omega
          · rw [if_neg hc, if_neg hc]
            rfl
    · rw [if_neg h, if_neg h]
      rfl

theorem upLoop_pos {cond : α → α → Bool} {fuel : ℕ} {v : Vec α} {i t : ℕ} {r : Vec α × ℕ} (hi : i < 2147483648) (ht : t < v.len → t < 2147483648)
    (h : upLoop cond fuel v i t = .ok r) : r.2 < 2147483648 := by
  induction fuel generalizing v i t with
  | zero => cases h
  | succ fuel ih =>
    unfold upLoop at h
    by_cases hl : t < v.len
    · rw [if_pos hl] at h
      obtain ⟨x, -, h⟩ := bind_cases h
      obtain ⟨y, -, h⟩ := bind_cases h
      by_cases hc : cond x y = true
      · rw [if_pos hc] at h
        obtain ⟨w, h1, h⟩ := bind_cases h
        refine ih (ht hl) ?_ h
        by_cases hg : t > 2
        · have hh : hasGrandparent t = true := decide_eq_true hg
          rw [if_pos hh, grandparent_eq]
          have := ht hl
          omega
        · have hh : ¬ hasGrandparent t = true := by unfold hasGrandparent; simpa using hg
          rw [if_neg hh]
          omega
      · rw [if_neg hc] at h
        cases h; exact hi
    · rw [if_neg hl] at h
      cases h; exact hi

theorem heapUpW_eq (cmp : α → α → Bool) (v : Vec α) (i : ℕ) (hi : i < 2147483648) : heapUpW cmp v (i : ℤ) = heapUp cmp v i := by
  unfold heapUpW heapUp
  rw [toSize_nat (by omega)]
  extract_lets j onMinW iminW imaxW onMin imin imax
  have f1 : iminW = imin := rfl
  have f2 : imaxW = imax := rfl
  have f3 : j = i := rfl
  rw [f1, f2, f3]
  have hg : (if hasGrandparent i = true then grandparent i else v.len) < v.len → (if hasGrandparent i = true then grandparent i else v.len) < 2147483648 := by
    by_cases hg : i > 2
    · have hh : hasGrandparent i = true := decide_eq_true hg
      rw [if_pos hh, grandparent_eq]
      omega
    · have hh : ¬ hasGrandparent i = true := by unfold hasGrandparent; simpa using hg
      rw [if_neg hh]
      omega
  have hp : (if hasParent i = true then parent i else v.len) < v.len → (if hasParent i = true then parent i else v.len) < 2147483648 := by
    by_cases hg : i > 0
    · have hh : hasParent i = true := decide_eq_true hg
      rw [if_pos hh, parent_eq]
      omega
    · have hh : ¬ hasParent i = true := by unfold hasParent; simpa using hg
      rw [if_neg hh]
      omega
  have h1 : imin < v.len → imin < 2147483648 := by
    by_cases ho : onMin = true
    · have e : imin = if hasGrandparent i = true then grandparent i else v.len := if_pos ho
      rw [e]; exact hg
    · have e : imin = if hasParent i = true then parent i else v.len := if_neg ho
      rw [e]; exact hp
  have h2 : imax < v.len → imax < 2147483648 := by
    by_cases ho : onMin = true
    · have e : imax = if hasParent i = true then parent i else v.len := if_pos ho
      rw [e]; exact hp
    · have e : imax = if hasGrandparent i = true then grandparent i else v.len := if_neg ho
      rw [e]; exact hg
  rw [upLoopW_eq _ _ _ _ _ hi h1]
  cases e1 : upLoop (fun a b => cmp a b) (i + 2) v i imin with
  | error e => rfl
  | ok r =>
    obtain ⟨v1, i1⟩ := r
    have p1 : i1 < 2147483648 := upLoop_pos hi h1 e1
    have l1 : v1.len = v.len := upLoop_len e1
    show (upLoopW (fun a b => !cmp a b) (Cxx.toSize (i1 : ℤ) + v1.len + 2) v1 (i1 : ℤ) imax >>= _) = (upLoop (fun a b => !cmp a b) (i1 + v1.len + 2) v1 i1 imax >>= _)
    rw [toSize_nat (by omega), upLoopW_eq _ _ _ _ _ p1 (by rw [l1]; exact h2)]
    cases e2 : upLoop (fun a b => !cmp a b) (i1 + v1.len + 2) v1 i1 imax with
    | error e => rfl
    | ok r => rfl

theorem pushW_eq (cmp : α → α → Bool) (v : Vec α) (x : α) (h : v.len < 2147483648) : pushW cmp v x = push cmp v x := by
  show heapUpW cmp (v.push x) (Cxx.ofSize v.len) = heapUp cmp (v.push x) v.len
  rw [ofSize_small h]
  exact heapUpW_eq cmp _ _ h

theorem upLoopW_stop (cond : α → α → Bool) (fuel : ℕ) (v : Vec α) (i : ℤ) {t : ℕ} (h : v.len ≤ t) : upLoopW cond (fuel + 1) v i t = .ok (v, i) := by
  unfold upLoopW
  rw [if_neg (by omega)]
  rfl

/-- A negative position has ancestors, all of them beyond the end of the storage: nothing is moved. -/
theorem heapUpW_neg (cmp : α → α → Bool) (v : Vec α) {i : ℤ} (h1 : -2147483648 ≤ i) (h2 : i < 0) (hl : v.len ≤ 2305843009213693952) : heapUpW cmp v i = .ok v := by
  unfold heapUpW
  extract_lets j onMin imin imax
  have hj : 18446744071562067968 ≤ j := by show _ ≤ (i % 18446744073709551616).toNat; omega
  have hg : hasGrandparent j = true := decide_eq_true (by omega)
  have hp : hasParent j = true := decide_eq_true (by omega)
  have g1 : v.len ≤ grandparent j := by rw [grandparent_eq]; omega
  have p1 : v.len ≤ parent j := by rw [parent_eq]; omega
  have h1 : v.len ≤ imin := by
    show v.len ≤ if onMin = true then (if hasGrandparent j = true then grandparent j else v.len) else (if hasParent j = true then parent j else v.len)
    rw [if_pos hg, if_pos hp]
    split_ifs
    · exact g1
    · exact p1
  have h2 : v.len ≤ imax := by
    show v.len ≤ if onMin = true then (if hasParent j = true then parent j else v.len) else (if hasGrandparent j = true then grandparent j else v.len)
    rw [if_pos hg, if_pos hp]
    split_ifs
    · exact p1
    · exact g1
  rw [upLoopW_stop _ _ _ _ h1]
  show (upLoopW (fun a b => !cmp a b) (Cxx.toSize i + v.len + 2) v i imax >>= _) = _
  rw [upLoopW_stop _ _ _ _ h2]
  rfl

theorem ofSize_cases (n : ℕ) : (2147483648 ≤ n % 4294967296 ∧ -2147483648 ≤ Cxx.ofSize n ∧ Cxx.ofSize n < 0) ∨
    (n % 4294967296 < 2147483648 ∧ Cxx.ofSize n = ((n % 4294967296 : ℕ) : ℤ)) := by
  unfold Cxx.ofSize
  rw [Int.bmod_def]
  split_ifs <;> omega

/-- C132: when the number of elements modulo 2^32 is 2^31 or more, a pushed element is left at the end of the storage, whatever the comparator. -/
theorem C132_push_violated (cmp : α → α → Bool) (v : Vec α) (x : α) (h : 2147483648 ≤ v.len % 4294967296) (hl : v.len < 2305843009213693952) :
    pushW cmp v x = .ok (v.push x) := by
  show heapUpW cmp (v.push x) (Cxx.ofSize v.len) = _
  rcases ofSize_cases v.len with ⟨-, h1, h2⟩ | ⟨h1, -⟩
  · exact heapUpW_neg cmp _ h1 h2 (by show v.len + 1 ≤ _; omega)
  · omega

theorem pushW_content (cmp : α → α → Bool) (v : Vec α) (x : α) (hl : v.len < 2305843009213693952) :
    ∃ v', pushW cmp v x = .ok v' ∧ v'.len = v.len + 1 ∧ content v' = x ::ₘ content v := by
  rcases ofSize_cases v.len with ⟨h, -⟩ | ⟨h1, h2⟩
  · exact ⟨v.push x, C132_push_violated cmp v x h hl, rfl, content_push v x⟩
  · obtain ⟨v', e1, e2, e3⟩ := heapUp_rearr cmp (v.push x) (v.len % 4294967296) (by show _ < v.len + 1; omega)
    refine ⟨v', ?_, e2, e3.trans (content_push v x)⟩
    show heapUpW cmp (v.push x) (Cxx.ofSize v.len) = _
    rw [h2, heapUpW_eq cmp _ _ h1]
    exact e1

/-- `session` with the widths of the code: the elements reported by `top()` and `bottom()` just before the pops are collected. -/
def sessionW (cmp : α → α → Bool) : List (Op α) → Vec α → Multiset α → Outcome (Vec α × Multiset α)
  | [], v, r => .ok (v, r)
  | .push x :: t, v, r => do
    let v ← pushW cmp v x
    sessionW cmp t v r
  | .popTop :: t, v, r => do
    let x ← top v
    let v ← popTopW cmp v
    sessionW cmp t v (x ::ₘ r)
  | .popBottom :: t, v, r => do
    let x ← bottom cmp v
    let v ← popBottomW cmp v
    sessionW cmp t v (x ::ₘ r)

/-- C132: with the widths of the code, for every comparator and every history of up to 2^61 operations, the heap holds the pushed elements minus those reported before the pops (as C19);
the other histories stop with the assertion. -/
theorem C132_contents (cmp : α → α → Bool) (z : α) (h : List (Op α)) (hn : h.length ≤ 2305843009213693952) :
    (Safe 0 h → ∃ v r, sessionW cmp h (Vec.empty z) 0 = .ok (v, r) ∧ runW cmp z h = .ok v ∧ content v + r = pushed h) ∧
    (¬ Safe 0 h → sessionW cmp h (Vec.empty z) 0 = .error .abort ∧ runW cmp z h = .error .abort) := by
  have ok : ∀ (h : List (Op α)) (v : Vec α) (r : Multiset α), v.len + h.length ≤ 2305843009213693952 → Safe v.len h →
      ∃ v' r', sessionW cmp h v r = .ok (v', r') ∧ h.foldlM (stepW cmp) v = .ok v' ∧ content v' + r' = content v + r + pushed h := by
    intro h
    induction h with
    | nil => exact fun v r _ _ => ⟨v, r, rfl, rfl, by simp [pushed]⟩
    | cons o t ih =>
      intro v r hn hs
      rw [List.length_cons] at hn
      cases o with
      | push x =>
        obtain ⟨v1, h1, h2, h3⟩ := pushW_content cmp v x (by omega)
        obtain ⟨v', r', e1, e2, e3⟩ := ih v1 r (by omega) (by rw [h2]; exact hs)
        refine ⟨v', r', ?_, (foldlM_cons (stepW cmp) v v1 (.push x) _ h1).trans e2, ?_⟩
        · rw [sessionW, h1]; exact e1
        · rw [e3, h3, pushed]
          simp only [Multiset.cons_add, Multiset.add_cons]
      | popTop =>
        obtain ⟨x, v1, h0, h1, h2, h3⟩ := popTop_content cmp v (by have := hs.1; omega)
        rw [← popTopW_eq cmp v (by omega)] at h1
        obtain ⟨v', r', e1, e2, e3⟩ := ih v1 (x ::ₘ r) (by omega) (by rw [h2]; exact hs.2)
        refine ⟨v', r', ?_, (foldlM_cons (stepW cmp) v v1 .popTop _ h1).trans e2, ?_⟩
        · rw [sessionW, h0, bind_ok, h1]; exact e1
        · rw [e3, h3, pushed]
          simp only [Multiset.cons_add, Multiset.add_cons]
      | popBottom =>
        obtain ⟨x, v1, h0, h1, h2, h3⟩ := popBottom_content cmp v (by have := hs.1; omega)
        rw [← popBottomW_eq cmp v (by omega)] at h1
        obtain ⟨v', r', e1, e2, e3⟩ := ih v1 (x ::ₘ r) (by omega) (by rw [h2]; exact hs.2)
        refine ⟨v', r', ?_, (foldlM_cons (stepW cmp) v v1 .popBottom _ h1).trans e2, ?_⟩
        · rw [sessionW, h0, bind_ok, h1]; exact e1
        · rw [e3, h3, pushed]
          simp only [Multiset.cons_add, Multiset.add_cons]
  have no : ∀ (h : List (Op α)) (v : Vec α) (r : Multiset α), v.len + h.length ≤ 2305843009213693952 → ¬ Safe v.len h →
      sessionW cmp h v r = .error .abort ∧ h.foldlM (stepW cmp) v = .error .abort := by
    intro h
    induction h with
    | nil => exact fun v r _ hs => absurd trivial hs
    | cons o t ih =>
      intro v r hn hs
      rw [List.length_cons] at hn
      cases o with
      | push x =>
        obtain ⟨v1, h1, h2, h3⟩ := pushW_content cmp v x (by omega)
        obtain ⟨e1, e2⟩ := ih v1 r (by omega) (by rw [h2]; exact hs)
        exact ⟨by rw [sessionW, h1]; exact e1, (foldlM_cons (stepW cmp) v v1 (.push x) _ h1).trans e2⟩
      | popTop =>
        by_cases hl : v.len = 0
        · exact ⟨by rw [sessionW, top, if_pos hl]; rfl, foldlM_cons_error _ _ _ _ _ (by rw [stepW, popTopW, if_pos hl])⟩
        · obtain ⟨x, v1, h0, h1, h2, h3⟩ := popTop_content cmp v hl
          rw [← popTopW_eq cmp v (by omega)] at h1
          obtain ⟨e1, e2⟩ := ih v1 (x ::ₘ r) (by omega) (by rw [h2]; exact fun h => hs ⟨by omega, h⟩)
          exact ⟨by rw [sessionW, h0, bind_ok, h1]; exact e1, (foldlM_cons (stepW cmp) v v1 .popTop _ h1).trans e2⟩
      | popBottom =>
        by_cases hl : v.len = 0
        · exact ⟨by rw [sessionW, bottom, if_pos hl]; rfl, foldlM_cons_error _ _ _ _ _ (by rw [stepW, popBottomW, if_pos hl])⟩
        · obtain ⟨x, v1, h0, h1, h2, h3⟩ := popBottom_content cmp v hl
          rw [← popBottomW_eq cmp v (by omega)] at h1
          obtain ⟨e1, e2⟩ := ih v1 (x ::ₘ r) (by omega) (by rw [h2]; exact fun h => hs ⟨by omega, h⟩)
          exact ⟨by rw [sessionW, h0, bind_ok, h1]; exact e1, (foldlM_cons (stepW cmp) v v1 .popBottom _ h1).trans e2⟩
  refine ⟨fun hs => ?_, fun hs => no h (Vec.empty z) 0 (by show 0 + _ ≤ _; omega) hs⟩
  obtain ⟨v, r, h1, h2, h3⟩ := ok h (Vec.empty z) 0 (by show 0 + _ ≤ _; omega) hs
  refine ⟨v, r, h1, h2, ?_⟩
  rw [h3]
  simp [content, Vec.empty]

/-- C132: a history during which the heap never holds more than 2^31 elements has, with the widths of the code, the result of the model with unbounded positions. -/
theorem C132_small_partial (cmp : α → α → Bool) (z : α) (h : List (Op α))
    (hm : ∀ h1 h2 v, h = h1 ++ h2 → run cmp z h1 = .ok v → v.len ≤ 2147483648) : runW cmp z h = run cmp z h := by
  have key : ∀ (h : List (Op α)) (v : Vec α), v.len ≤ 2147483648 → (∀ h1 h2 v', h = h1 ++ h2 → h1.foldlM (step cmp) v = .ok v' → v'.len ≤ 2147483648) →
      h.foldlM (stepW cmp) v = h.foldlM (step cmp) v := by
    intro h
    induction h with
    | nil =>
      intro v _ _
      rw [List.foldlM_nil, List.foldlM_nil]
    | cons o t ih =>
      intro v hv hm
      have e : stepW cmp v o = step cmp v o := by
        cases o with
        | push x =>
          show pushW cmp v x = push cmp v x
          refine pushW_eq cmp v x ?_
          obtain ⟨v', h1, h2, -⟩ := push_content cmp v x
          have := hm [.push x] t v' rfl (foldlM_cons (step cmp) v v' (.push x) [] h1)
          omega
        | popTop => exact popTopW_eq cmp v (by omega)
        | popBottom => exact popBottomW_eq cmp v (by omega)
      rw [List.foldlM_cons, List.foldlM_cons, e]
      cases es : step cmp v o with
      | error x => rw [error_bind, error_bind]
      | ok v1 =>
        rw [bind_ok, bind_ok]
        refine ih v1 (hm [o] t v1 rfl (foldlM_cons (step cmp) v v1 o [] es)) fun h1 h2 v' e1 e2 => ?_
        exact hm (o :: h1) h2 v' (by rw [e1]; rfl) ((foldlM_cons (step cmp) v v1 o h1 es).trans e2)
  exact key h (Vec.empty z) (by show 0 ≤ _; omega) hm

/-- C132: after any number of pushes and pops of the last element, `top()` is a first element and `bottom()` a last one. -/
def C132_statement : Prop := ∀ (α : Type) (cmp : α → α → Bool) (z : α), StrictWeak cmp → ∀ h : List (Op α), Safe 0 h → Op.popTop ∉ h → h.length ≤ 2305843009213693952 →
  ∃ v, runW cmp z h = .ok v ∧ (v.len ≠ 0 → (∃ x, top v = .ok x ∧ IsFirst cmp (content v) x) ∧ ∃ y, bottom cmp v = .ok y ∧ IsLast cmp (content v) y)

/-- C132: it holds while the heap has at most 2^31 elements. -/
theorem C132_order_partial (cmp : α → α → Bool) (z : α) (hw : StrictWeak cmp) (h : List (Op α)) (hs : Safe 0 h) (ht : Op.popTop ∉ h)
    (hm : ∀ h1 h2 v, h = h1 ++ h2 → run cmp z h1 = .ok v → v.len ≤ 2147483648) :
    ∃ v, runW cmp z h = .ok v ∧ (v.len ≠ 0 → (∃ x, top v = .ok x ∧ IsFirst cmp (content v) x) ∧ ∃ y, bottom cmp v = .ok y ∧ IsLast cmp (content v) y) := by
  rw [C132_small_partial cmp z h hm]
  exact C20_noPopTop_partial cmp z hw h hs ht

theorem pushes_safe (n k : ℕ) (x : α) (t : List (Op α)) (ht : ∀ m, Safe m t) : Safe k (List.replicate n (.push x) ++ t) := by
  induction n generalizing k with
  | zero => exact ht k
  | succ n ih => rw [List.replicate_succ]; exact ih (k + 1)

theorem pushes_content (cmp : α → α → Bool) (x : α) (n : ℕ) (v : Vec α) (hn : v.len + n ≤ 2305843009213693952) :
    ∃ v', (List.replicate n (Op.push x)).foldlM (stepW cmp) v = .ok v' ∧ v'.len = v.len + n ∧ content v' = Multiset.replicate n x + content v := by
  induction n generalizing v with
  | zero => exact ⟨v, by rw [List.replicate_zero, List.foldlM_nil]; rfl, rfl, by simp⟩
  | succ n ih =>
    obtain ⟨v1, h1, h2, h3⟩ := pushW_content cmp v x (by omega)
    obtain ⟨v', e1, e2, e3⟩ := ih v1 (by omega)
    refine ⟨v', ?_, by omega, ?_⟩
    · rw [List.replicate_succ]
      exact (foldlM_cons (stepW cmp) v v1 (.push x) _ h1).trans e1
    · rw [e3, h3, Multiset.replicate_succ, Multiset.add_cons, Multiset.cons_add]

theorem many_pushes (n : ℕ) (h1 : 2147483648 ≤ n) (h2 : n < 4294967296) :
    ∃ v, runW ltNat 0 (List.replicate n (.push 1) ++ [.push 0]) = .ok v ∧ v.len = n + 1 ∧ top v = .ok 1 ∧ 0 ∈ content v := by
  obtain ⟨v, e1, e2, e3⟩ := pushes_content ltNat 1 n (Vec.empty 0) (by show 0 + n ≤ _; omega)
  have el : v.len = n := by rw [e2]; show 0 + n = n; omega
  have e4 : content v = Multiset.replicate n 1 := by rw [e3]; simp [content, Vec.empty]
  have ev : v.val 0 = 1 := Multiset.eq_of_mem_replicate (e4 ▸ mem_content.2 ⟨0, by omega, rfl⟩)
  have ep : stepW ltNat v (.push 0) = .ok (v.push 0) := C132_push_violated ltNat v 0 (by omega) (by omega)
  refine ⟨v.push 0, ?_, ?_, ?_, ?_⟩
  · unfold runW
    rw [List.foldlM_append, e1, bind_ok]
    exact foldlM_cons (stepW ltNat) v (v.push 0) (.push 0) [] ep
  · show v.len + 1 = n + 1
    rw [el]
  · have hp : (v.push 0).len = n + 1 := by show v.len + 1 = n + 1; rw [el]
    unfold top
    rw [if_neg (by omega), ← ev]
    refine (Vec.get_nat (v.push 0) (i := 0) (by omega)).trans ?_
    show Except.ok (if 0 = v.len then 0 else v.val 0) = _
    rw [if_neg (by omega)]
  · rw [content_push]
    exact Multiset.mem_cons_self _ _

/-- C132 fails: after 2^31 or more elements 1 (up to 2^32 - 1), a pushed 0 is not found at the top. -/
theorem C132_violated : ¬ C132_statement ∧ ∀ n : ℕ, 2147483648 ≤ n → n < 4294967296 →
    ∃ v, runW ltNat 0 (List.replicate n (.push 1) ++ [.push 0]) = .ok v ∧ top v = .ok 1 ∧ 0 ∈ content v := by
  refine ⟨fun hst => ?_, fun n h1 h2 => ?_⟩
  · obtain ⟨n, hn⟩ : ∃ n : ℕ, n = 2147483648 := ⟨_, rfl⟩
    obtain ⟨v, e1, e2, e3, e4⟩ := many_pushes n (by omega) (by omega)
    obtain ⟨w, f1, f2⟩ := hst ℕ ltNat 0 ltNat_strictWeak (List.replicate n (.push 1) ++ [.push 0]) (pushes_safe n 0 1 [.push 0] fun _ => trivial)
      (by simp [List.mem_append, List.mem_replicate]) (by rw [List.length_append, List.length_replicate]; show n + 1 ≤ _; omega)
    obtain rfl : v = w := Except.ok.inj (e1.symm.trans f1)
    obtain ⟨⟨x, g1, g2⟩, -⟩ := f2 (by omega)
    obtain rfl : 1 = x := Except.ok.inj (e3.symm.trans g1)
    exact absurd (g2.2 0 e4) (by decide)
  · obtain ⟨v, e1, -, e3, e4⟩ := many_pushes n h1 h2
    exact ⟨v, e1, e3, e4⟩

/-- Seven pushes and two pops with the widths of the code. -/
example : ((runW ltNat 0 [.push 5, .push 2, .push 7, .push 3, .push 11, .push 1, .push 8, .popTop, .popBottom]).toOption.map Vec.toList) = some [2, 7, 8, 3, 5] := by decide +kernel

end Verif.Heap
