import Mathlib.Order.Antisymmetrization
import Mathlib.Order.Basic
import Mathlib.Tactic.Order
import Mathlib.Logic.Equiv.Basic
import Mathlib.Data.Multiset.Range
import Mathlib.Data.Multiset.UnionInter
import Mathlib.Data.Multiset.MapFold
import Verif.Heap.Model

/-! Lemmas on the min-max heap. -/
namespace Verif.Heap
open Verif
variable {α : Type}

theorem parent_eq (c : ℕ) : parent c = (c - 1) / 2 := by unfold parent; rw [Nat.shiftRight_eq_div_pow]
theorem grandparent_eq (c : ℕ) : grandparent c = (c - 3) / 4 := by unfold grandparent; rw [Nat.shiftRight_eq_div_pow]
theorem childLeft_eq (c : ℕ) : childLeft c = 2 * c + 1 := by unfold childLeft; rw [Nat.shiftLeft_eq]; omega
theorem grandchild_eq (c k : ℕ) : grandchild c k = 4 * c + 3 + k := by unfold grandchild; rw [Nat.shiftLeft_eq]; omega

/-! ### Contents -/

/-- The elements stored. -/
def content (v : Vec α) : Multiset α := (Multiset.range v.len).map v.val

/-- The same elements in another order. -/
def Rearr (v v' : Vec α) : Prop := v'.len = v.len ∧ content v' = content v

theorem Rearr.refl (v : Vec α) : Rearr v v := ⟨rfl, rfl⟩
theorem Rearr.trans {u v w : Vec α} (h : Rearr u v) (h' : Rearr v w) : Rearr u w := ⟨h'.1.trans h.1, h'.2.trans h.2⟩

/-- The result of a swap. -/
def sw (v : Vec α) (i j : ℕ) : Vec α := ⟨v.len, fun x => v.val (Equiv.swap i j x)⟩

theorem swap_ok {v : Vec α} {i j : ℕ} (hi : i < v.len) (hj : j < v.len) : swap v i j = .ok (sw v i j) := by
  unfold swap
  rw [Vec.get_nat v hi, Vec.get_nat v hj]
  simp only [bind, Except.bind]
  rw [Vec.set_nat v hi]
  simp only
  refine (Vec.set_nat ⟨v.len, fun j_1 => if j_1 = i then v.val j else v.val j_1⟩ (i := j) hj _).trans ?_
  unfold sw
  congr 2
  funext x
  simp only [Equiv.swap_apply_def]
  split_ifs <;> simp_all

theorem rearr_sw {v : Vec α} {i j : ℕ} (hi : i < v.len) (hj : j < v.len) : Rearr v (sw v i j) := by
  refine ⟨rfl, ?_⟩
  unfold content sw
  simp only
  have e : (Multiset.range v.len).map (Equiv.swap i j) = Multiset.range v.len := by
    rw [Multiset.Nodup.ext ((Multiset.nodup_range _).map (Equiv.swap i j).injective) (Multiset.nodup_range _)]
    intro x
    rw [Multiset.mem_map]
    constructor
    · rintro ⟨y, hy, rfl⟩
      rw [Multiset.mem_range] at *
      simp only [Equiv.swap_apply_def]; split_ifs <;> assumption
    · intro hx
      refine ⟨Equiv.swap i j x, ?_, by simp⟩
      rw [Multiset.mem_range] at *
      simp only [Equiv.swap_apply_def]; split_ifs <;> assumption
  conv_rhs => rw [← e, Multiset.map_map]
  rfl

theorem content_push (v : Vec α) (x : α) : content (v.push x) = x ::ₘ content v := by
  unfold content Vec.push
  simp only [Multiset.range_succ, Multiset.map_cons, if_true]
  congr 1
  apply Multiset.map_congr rfl
  intro y hy
  rw [Multiset.mem_range] at hy
  rw [if_neg (by omega)]

theorem content_popBack {v : Vec α} (h : v.len ≠ 0) : content v = v.val (v.len - 1) ::ₘ content (popBack v) := by
  obtain ⟨n, val⟩ := v
  obtain ⟨n, rfl⟩ : ∃ m, n = m + 1 := ⟨n - 1, by simp only at h; omega⟩
  simp [content, popBack, Multiset.range_succ]

theorem mem_content {v : Vec α} {x : α} : x ∈ content v ↔ ∃ i < v.len, v.val i = x := by
  unfold content; simp only [Multiset.mem_map, Multiset.mem_range]

/-! ### No comparator assumption: termination, bounds, contents -/

theorem childBest_ok (better : α → α → Bool) (v : Vec α) (i : ℕ) :
    ∃ r, childBest better v i = .ok r ∧ (r = 2 * i + 1 ∨ r = 2 * i + 2) ∧ (2 * i + 1 < v.len → r < v.len) ∧
      (v.len ≤ 2 * i + 1 → r = 2 * i + 1) := by
  unfold childBest
  simp only [childLeft_eq]
  by_cases h : 2 * i + 1 + 1 < v.len
  · rw [if_pos h, Vec.get_nat v h, Vec.get_nat v (by omega)]
    refine ⟨_, rfl, ?_⟩
    split_ifs <;> omega
  · rw [if_neg h]
    exact ⟨_, rfl, by omega⟩

theorem grandchildLoop_ok (better : α → α → Bool) (v : Vec α) (n j b : ℕ) (hb : b < v.len ∨ v.len ≤ j) :
    ∃ r, grandchildLoop better v n j b = .ok r ∧ (r = b ∨ j ≤ r ∧ r < j + n ∧ r < v.len) := by
  induction n generalizing j b with
  | zero => exact ⟨b, rfl, Or.inl rfl⟩
  | succ n ih =>
    unfold grandchildLoop
    by_cases h : j < v.len
    · have hb' : b < v.len := by omega
      rw [if_pos h, Vec.get_nat v h, Vec.get_nat v hb']
      simp only [bind, Except.bind]
      obtain ⟨r, h1, h2⟩ := ih (j + 1) (if better (v.val j) (v.val b) then j else b) (by split_ifs <;> omega)
      refine ⟨r, h1, ?_⟩
      split_ifs at h2 <;> omega
    · rw [if_neg h]
      exact ⟨b, rfl, Or.inl rfl⟩

theorem grandchildBest_ok (better : α → α → Bool) (v : Vec α) (i : ℕ) :
    ∃ r, grandchildBest better v i = .ok r ∧ (4 * i + 3 ≤ r ∧ r ≤ 4 * i + 6) ∧ (4 * i + 3 < v.len → r < v.len) ∧
      (v.len ≤ 4 * i + 3 → r = 4 * i + 3) := by
  unfold grandchildBest
  rw [grandchild_eq, Nat.add_zero]
  obtain ⟨r, h1, h2⟩ := grandchildLoop_ok better v 3 (4 * i + 3 + 1) (4 * i + 3) (by omega)
  exact ⟨r, h1, by omega⟩

theorem upLoop_rearr (cond : α → α → Bool) (fuel : ℕ) (v : Vec α) (i t : ℕ) (hi : i < v.len) (ht : t < v.len → t + 1 < fuel)
    (hf : 0 < fuel) : ∃ v' i', upLoop cond fuel v i t = .ok (v', i') ∧ Rearr v v' ∧ i' < v.len := by
  induction fuel generalizing v i t with
  | zero => omega
  | succ fuel ih =>
    unfold upLoop
    by_cases h : t < v.len
    · rw [if_pos h, Vec.get_nat v hi, Vec.get_nat v h]
      simp only [bind, Except.bind]
      by_cases hc : cond (v.val i) (v.val t) = true
      · rw [if_pos hc, swap_ok hi h]
        simp only
        have hr := rearr_sw (v := v) hi h
        by_cases hg : 2 < t
        · have e : hasGrandparent t = true := by simp [hasGrandparent, hg]
          rw [e, if_pos rfl]
          obtain ⟨v', i', h1, h2, h3⟩ := ih (sw v i t) t (grandparent t) h
            (by intro _; rw [grandparent_eq]; have := ht h; omega) (by have := ht h; omega)
          exact ⟨v', i', h1, hr.trans h2, h3⟩
        · have e : hasGrandparent t = false := by simp [hasGrandparent]; omega
          rw [e]
          simp only [Bool.false_eq_true, if_false]
          obtain ⟨v', i', h1, h2, h3⟩ := ih (sw v i t) t (sw v i t).len h (by intro h'; omega) (by have := ht h; omega)
          exact ⟨v', i', h1, hr.trans h2, h3⟩
      · rw [if_neg hc]
        exact ⟨v, i, rfl, Rearr.refl v, hi⟩
    · rw [if_neg h]
      exact ⟨v, i, rfl, Rearr.refl v, hi⟩

theorem bind_ok {β γ : Type} {x : β} {f : β → Outcome γ} : (Except.ok x >>= f : Outcome γ) = f x := rfl

/-- The first test of an iteration of `heapDownLoop`. -/
theorem useGrand_ok (better : α → α → Bool) (v : Vec α) {ic ig i : ℕ} (hi : i < v.len) (hc : ig < v.len → ic < v.len) :
    ∃ b, grandWins better v i ic ig = .ok b ∧
      (b = true ↔ ig < v.len ∧ better (v.val ig) (v.val i) = true ∧ better (v.val ig) (v.val ic) = true) := by
  unfold grandWins
  by_cases hg : ig < v.len
  · rw [if_pos hg, Vec.get_nat v hg, Vec.get_nat v hi]
    simp only [bind_ok]
    by_cases h1 : better (v.val ig) (v.val i) = true
    · rw [if_pos h1, Vec.get_nat v (hc hg)]
      exact ⟨_, rfl, by simp [hg, h1]⟩
    · rw [if_neg h1]
      exact ⟨_, rfl, by simp [h1]⟩
  · rw [if_neg hg]
    exact ⟨_, rfl, by simp [hg]⟩

/-- The second test. -/
theorem useChild_ok (better : α → α → Bool) (v : Vec α) {ic i : ℕ} (hi : i < v.len) :
    ∃ b, childWins better v i ic = .ok b ∧ (b = true ↔ ic < v.len ∧ better (v.val ic) (v.val i) = true) := by
  unfold childWins
  by_cases hg : ic < v.len
  · rw [if_pos hg, Vec.get_nat v hg, Vec.get_nat v hi]
    exact ⟨_, rfl, by simp [hg]⟩
  · rw [if_neg hg]
    exact ⟨_, rfl, by simp [hg]⟩

/-- One iteration of `heapDownLoop` on a position inside the heap: the four ways it can go on. -/
theorem heapDown_step (better : α → α → Bool) (cont : Bool) (fuel : ℕ) (v : Vec α) (i : ℕ) (hi : i < v.len) :
    ∃ ic ig, childBest better v i = .ok ic ∧ grandchildBest better v i = .ok ig ∧
      ((ig < v.len ∧ better (v.val ig) (v.val i) = true ∧ better (v.val ig) (v.val ic) = true ∧
          ((better (v.val (parent ig)) (v.val i) = true ∧
              heapDownLoop better cont (fuel + 1) v i = heapDownLoop better cont fuel (sw (sw v i ig) (parent ig) ig) ig) ∨
            (¬ better (v.val (parent ig)) (v.val i) = true ∧
              heapDownLoop better cont (fuel + 1) v i = heapDownLoop better cont fuel (sw v i ig) ig))) ∨
        (¬ (ig < v.len ∧ better (v.val ig) (v.val i) = true ∧ better (v.val ig) (v.val ic) = true) ∧
          ((ic < v.len ∧ better (v.val ic) (v.val i) = true ∧
              heapDownLoop better cont (fuel + 1) v i =
                if cont then heapDownLoop better cont fuel (sw v i ic) ic else .ok (sw v i ic)) ∨
            (¬ (ic < v.len ∧ better (v.val ic) (v.val i) = true) ∧ heapDownLoop better cont (fuel + 1) v i = .ok v)))) := by
  obtain ⟨ic, c1, c2, c3, c4⟩ := childBest_ok better v i
  obtain ⟨ig, g1, g2, g3, g4⟩ := grandchildBest_ok better v i
  refine ⟨ic, ig, c1, g1, ?_⟩
  obtain ⟨b, b1, b2⟩ := useGrand_ok better v (ic := ic) (ig := ig) hi (by omega)
  obtain ⟨d, d1, d2⟩ := useChild_ok better v (ic := ic) hi
  have hp : ig < v.len → parent ig < v.len := by rw [parent_eq]; omega
  have hpi : parent ig ≠ i ∧ parent ig ≠ ig := by rw [parent_eq]; omega
  conv => enter [1, 2, 2, 2, 1, 2, 1]; unfold heapDownLoop
  conv => enter [1, 2, 2, 2, 2, 2, 1]; unfold heapDownLoop
  conv => enter [2, 2, 1, 2, 2, 1]; unfold heapDownLoop
  conv => enter [2, 2, 2, 2, 1]; unfold heapDownLoop
  simp only [if_pos hi, c1, g1, bind_ok, b1]
  by_cases hb : b = true
  · left
    have hb' := b2.1 hb
    refine ⟨hb'.1, hb'.2.1, hb'.2.2, ?_⟩
    have hl := hb'.1
    have e1 : (sw v i ig).get (parent ig : ℕ) = .ok (v.val (parent ig)) := by
      refine (Vec.get_nat (sw v i ig) (hp hl)).trans ?_
      simp only [sw]
      rw [Equiv.swap_apply_of_ne_of_ne hpi.1 hpi.2]
    have e2 : (sw v i ig).get (ig : ℕ) = .ok (v.val i) := by
      refine (Vec.get_nat (sw v i ig) hl).trans ?_
      simp only [sw]
      rw [Equiv.swap_apply_right]
    rw [if_pos hb, swap_ok hi hl]
    simp only [bind_ok, fixParent, e1, e2]
    by_cases hh : better (v.val (parent ig)) (v.val i) = true
    · left
      refine ⟨hh, ?_⟩
      rw [if_pos hh, swap_ok (v := sw v i ig) (hp hl) hl]
      rfl
    · right
      refine ⟨hh, ?_⟩
      rw [if_neg hh]
      rfl
  · right
    refine ⟨fun h => hb (b2.2 h), ?_⟩
    rw [if_neg hb]
    simp only [d1, bind_ok]
    by_cases hd : d = true
    · left
      have hd' := d2.1 hd
      refine ⟨hd'.1, hd'.2, ?_⟩
      rw [if_pos hd, swap_ok hi hd'.1]
      rfl
    · right
      refine ⟨fun h => hd (d2.2 h), ?_⟩
      rw [if_neg hd]
      rfl

theorem heapDown_rearr (better : α → α → Bool) (cont : Bool) (fuel : ℕ) (v : Vec α) (i : ℕ) (hf : v.len < i + fuel) (h0 : 0 < fuel) :
    ∃ v', heapDownLoop better cont fuel v i = .ok v' ∧ Rearr v v' := by
  induction fuel generalizing v i with
  | zero => omega
  | succ fuel ih =>
    by_cases hi : i < v.len
    · obtain ⟨ic, ig, c, g, h⟩ := heapDown_step better cont fuel v i hi
      obtain ⟨ic', c1, c2, c3, c4⟩ := childBest_ok better v i
      obtain ⟨ig', g1, g2, g3, g4⟩ := grandchildBest_ok better v i
      obtain rfl : ic' = ic := by rw [c] at c1; exact (Except.ok.inj c1).symm
      obtain rfl : ig' = ig := by rw [g] at g1; exact (Except.ok.inj g1).symm
      have hp : ig' < v.len → parent ig' < v.len := by rw [parent_eq]; omega
      rcases h with ⟨h1, -, -, h⟩ | ⟨-, h⟩
      · have r1 := rearr_sw (v := v) hi h1
        rcases h with ⟨-, e⟩ | ⟨-, e⟩
        · have r2 := rearr_sw (v := sw v i ig') (hp h1) h1
          obtain ⟨v', e', r3⟩ := ih (sw (sw v i ig') (parent ig') ig') ig' (by show v.len < _; omega) (by omega)
          exact ⟨v', e.trans e', (r1.trans r2).trans r3⟩
        · obtain ⟨v', e', r3⟩ := ih (sw v i ig') ig' (by show v.len < _; omega) (by omega)
          exact ⟨v', e.trans e', r1.trans r3⟩
      · rcases h with ⟨h1, -, e⟩ | ⟨-, e⟩
        · have r1 := rearr_sw (v := v) hi h1
          by_cases hc : cont = true
          · rw [if_pos hc] at e
            obtain ⟨v', e', r3⟩ := ih (sw v i ic') ic' (by show v.len < _; omega) (by omega)
            exact ⟨v', e.trans e', r1.trans r3⟩
          · rw [if_neg hc] at e
            exact ⟨_, e, r1⟩
        · exact ⟨v, e, Rearr.refl v⟩
    · unfold heapDownLoop
      rw [if_neg hi]
      exact ⟨v, rfl, Rearr.refl v⟩

theorem heapUp_rearr (cmp : α → α → Bool) (v : Vec α) (i : ℕ) (hi : i < v.len) :
    ∃ v', heapUp cmp v i = .ok v' ∧ Rearr v v' := by
  unfold heapUp
  extract_lets onMin imin imax
  have hmin : imin < v.len → imin < i := by
    simp only [imin, hasGrandparent, hasParent, decide_eq_true_eq, grandparent_eq, parent_eq]
    split_ifs <;> omega
  have hmax : imax < v.len → imax < i := by
    simp only [imax, hasGrandparent, hasParent, decide_eq_true_eq, grandparent_eq, parent_eq]
    split_ifs <;> omega
  obtain ⟨v1, i1, e1, r1, l1⟩ := upLoop_rearr (fun a b => cmp a b) (i + 2) v i imin hi (by omega) (by omega)
  have hl := r1.1
  obtain ⟨v2, i2, e2, r2, l2⟩ := upLoop_rearr (fun a b => !cmp a b) (i1 + v1.len + 2) v1 i1 imax (by omega) (by omega) (by omega)
  rw [e1]
  simp only [bind_ok, e2]
  exact ⟨v2, rfl, r1.trans r2⟩

end Verif.Heap
