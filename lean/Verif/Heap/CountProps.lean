import Verif.Heap.CountModel
import Verif.Heap.Props
import Mathlib.Data.Nat.Log

/-! Property theorems C131 (see properties.jsonl): the number of comparisons of the heap. -/
namespace Verif.Heap
open Verif
variable {α : Type}

/-! ### Costs -/

/-- The counted computation `p` has the outcome of `q` and makes at most `B` comparisons. -/
def Costs {β : Type} (p : Counted β) (q : Outcome β) (B : ℕ) : Prop :=
  ∀ n, (∀ e, q = .error e → p n = .error e) ∧ ∀ r, q = .ok r → ∃ k ≤ B, p n = .ok (r, n + k)

variable {β γ : Type}

theorem Costs.free (x : Outcome β) : Costs (Heap.free x) x 0 := by
  intro n
  refine ⟨?_, ?_⟩
  · rintro e rfl; rfl
  · rintro r rfl; exact ⟨0, le_rfl, rfl⟩

theorem Costs.pure (r : β) : Costs (Pure.pure r) (Pure.pure r) 0 := by
  intro n
  refine ⟨fun e h => ?_, fun r' h => ?_⟩
  · cases h
  · cases h; exact ⟨0, le_rfl, rfl⟩

theorem Costs.ask (better : α → α → Bool) (a b : α) : Costs (Heap.ask better a b) (Pure.pure (better a b)) 1 := by
  intro n
  refine ⟨fun e h => ?_, fun r' h => ?_⟩
  · cases h
  · cases h; exact ⟨1, le_rfl, rfl⟩

theorem Costs.bind {p : Counted β} {q : Outcome β} {f : β → Counted γ} {g : β → Outcome γ} {B C : ℕ} (h : Costs p q B) (h' : ∀ r, q = .ok r → Costs (f r) (g r) C) :
    Costs (p >>= f) (q >>= g) (B + C) := by
  intro n
  have e0 : (p >>= f) n = (p n >>= fun x => f x.1 x.2) := rfl
  rw [e0]
  cases q with
  | error e =>
    rw [(h n).1 e rfl]
    exact ⟨fun e' h => by cases h; rfl, fun r h => by cases h⟩
  | ok r =>
    obtain ⟨k, hk, e⟩ := (h n).2 r rfl
    rw [e]
    have h2 := h' r rfl (n + k)
    refine ⟨h2.1, fun r' hr => ?_⟩
    obtain ⟨k', hk', e2⟩ := h2.2 r' hr
    exact ⟨k + k', by omega, by rw [← Nat.add_assoc]; exact e2⟩

theorem Costs.mono {p : Counted β} {q : Outcome β} {B C : ℕ} (h : Costs p q B) (hc : B ≤ C) : Costs p q C := by
  intro n
  refine ⟨(h n).1, fun r hr => ?_⟩
  obtain ⟨k, hk, e⟩ := (h n).2 r hr
  exact ⟨k, hk.trans hc, e⟩

/-- A comparison followed by the rest. -/
theorem Costs.ask_bind {better : α → α → Bool} {a b : α} {f : Bool → Counted γ} {q : Outcome γ} {C : ℕ} (h : Costs (f (better a b)) q C) : Costs (Heap.ask better a b >>= f) q (1 + C) :=
  Costs.bind (g := fun _ => q) (Costs.ask better a b) (by rintro r hr; cases hr; exact h)

theorem Costs.free_bind {x : Outcome β} {f : β → Counted γ} {g : β → Outcome γ} {C : ℕ} (h : ∀ r, x = .ok r → Costs (f r) (g r) C) : Costs (Heap.free x >>= f) (x >>= g) C := by
  have := Costs.bind (Costs.free x) h
  rwa [Nat.zero_add] at this

/-! ### The functions -/

theorem childBest_costs (better : α → α → Bool) (v : Vec α) (i : ℕ) : Costs (childBestC better v i) (childBest better v i) 1 := by
  unfold childBestC childBest
  dsimp only
  split_ifs
  · exact Costs.free_bind fun c _ => Costs.free_bind fun b _ => Costs.ask_bind (C := 0) (Costs.pure _)
  · exact (Costs.pure _).mono (by omega)

theorem grandchildLoop_costs (better : α → α → Bool) (v : Vec α) (n j b : ℕ) : Costs (grandchildLoopC better v n j b) (grandchildLoop better v n j b) n := by
  induction n generalizing j b with
  | zero => exact Costs.pure _
  | succ n ih =>
    unfold grandchildLoopC grandchildLoop
    split_ifs
    · refine (Costs.free_bind fun c _ => Costs.free_bind fun b _ => Costs.ask_bind (ih _ _)).mono (by omega)
    · exact (Costs.pure _).mono (by omega)

theorem grandchildBest_costs (better : α → α → Bool) (v : Vec α) (i : ℕ) : Costs (grandchildBestC better v i) (grandchildBest better v i) 3 := grandchildLoop_costs _ _ _ _ _

theorem grandWins_costs (better : α → α → Bool) (v : Vec α) (i c g : ℕ) : Costs (grandWinsC better v i c g) (grandWins better v i c g) 2 := by
  unfold grandWinsC grandWins
  split_ifs
  · refine Costs.free_bind fun x _ => Costs.free_bind fun y _ => Costs.ask_bind (C := 1) ?_
    split_ifs
    · exact Costs.free_bind fun _ _ => Costs.ask _ _ _
    · exact (Costs.pure _).mono (by omega)
  · exact (Costs.pure _).mono (by omega)

theorem childWins_costs (better : α → α → Bool) (v : Vec α) (i c : ℕ) : Costs (childWinsC better v i c) (childWins better v i c) 1 := by
  unfold childWinsC childWins
  split_ifs
  · exact Costs.free_bind fun x _ => Costs.free_bind fun y _ => Costs.ask _ _ _
  · exact (Costs.pure _).mono (by omega)

theorem fixParent_costs (better : α → α → Bool) (v : Vec α) (g : ℕ) : Costs (fixParentC better v g) (fixParent better v g) 1 := by
  unfold fixParentC fixParent
  refine Costs.free_bind fun x _ => Costs.free_bind fun y _ => Costs.ask_bind (C := 0) ?_
  split_ifs
  · exact Costs.free _
  · exact Costs.pure _

/-! ### The loops -/

theorem log_quarter (m : ℕ) : Nat.log 2 (m / 4) = Nat.log 2 m - 2 := by
  rw [show m / 4 = m / 2 / 2 by omega, Nat.log_div_base, Nat.log_div_base]
  omega

theorem two_le_log {m : ℕ} (h : 4 ≤ m) : 2 ≤ Nat.log 2 m := (Nat.le_log_iff_pow_le Nat.one_lt_two (by omega)).2 h

theorem set_len {v v' : Vec α} {i : ℤ} {x : α} (h : v.set i x = .ok v') : v'.len = v.len := by
  unfold Vec.set at h
  split_ifs at h
  cases h
  rfl

theorem bind_cases {x : Outcome β} {f : β → Outcome γ} {r : γ} (h : (x >>= f) = .ok r) : ∃ y, x = .ok y ∧ f y = .ok r := by
  cases x with
  | error e => cases h
  | ok y => exact ⟨y, rfl, h⟩

theorem swap_len {v v' : Vec α} {i j : ℕ} (h : swap v i j = .ok v') : v'.len = v.len := by
  unfold swap at h
  obtain ⟨x, -, h⟩ := bind_cases h
  obtain ⟨y, -, h⟩ := bind_cases h
  obtain ⟨w, h1, h⟩ := bind_cases h
  exact (set_len h).trans (set_len h1)

theorem fixParent_len {better : α → α → Bool} {v v' : Vec α} {g : ℕ} (h : fixParent better v g = .ok v') : v'.len = v.len := by
  unfold fixParent at h
  obtain ⟨x, -, h⟩ := bind_cases h
  obtain ⟨y, -, h⟩ := bind_cases h
  split_ifs at h
  · exact swap_len h
  · cases h; rfl

theorem upLoop_costs (cond : α → α → Bool) (fuel : ℕ) (v : Vec α) (i t : ℕ) :
    Costs (upLoopC cond fuel v i t) (upLoop cond fuel v i t) (if t < v.len then Nat.log 2 (t + 1) / 2 + 1 else 0) := by
  induction fuel generalizing v i t with
  | zero => exact (Costs.free _).mono (Nat.zero_le _)
  | succ fuel ih =>
    unfold upLoopC upLoop
    by_cases ht : t < v.len
    · rw [if_pos ht, if_pos ht, if_pos ht]
      refine (Costs.free_bind fun x _ => Costs.free_bind fun y _ => Costs.ask_bind (C := Nat.log 2 (t + 1) / 2) ?_).mono (by omega)
      by_cases hc : cond x y = true
      · rw [if_pos hc, if_pos hc]
        refine Costs.free_bind fun v' _ => (ih _ _ _).mono ?_
        by_cases hg : t > 2
        · have hh : hasGrandparent t = true := decide_eq_true hg
          rw [if_pos hh]
          have e : grandparent t + 1 = (t + 1) / 4 := by rw [grandparent_eq]; omega
          rw [e, log_quarter]
          have := two_le_log (m := t + 1) (by omega)
          split_ifs <;> omega
        · have hh : ¬ hasGrandparent t = true := by unfold hasGrandparent; simpa using hg
          rw [if_neg hh, if_neg (lt_irrefl _)]
          omega
      · rw [if_neg hc, if_neg hc]
        exact (Costs.pure _).mono (Nat.zero_le _)
    · rw [if_neg ht, if_neg ht, if_neg ht]
      exact Costs.pure _

theorem upLoop_len {cond : α → α → Bool} {fuel : ℕ} {v : Vec α} {i t : ℕ} {r : Vec α × ℕ} (h : upLoop cond fuel v i t = .ok r) : r.1.len = v.len := by
  induction fuel generalizing v i t with
  | zero => cases h
  | succ fuel ih =>
    unfold upLoop at h
    by_cases ht : t < v.len
    · rw [if_pos ht] at h
      obtain ⟨x, -, h⟩ := bind_cases h
      obtain ⟨y, -, h⟩ := bind_cases h
      by_cases hc : cond x y = true
      · rw [if_pos hc] at h
        obtain ⟨w, h1, h⟩ := bind_cases h
        exact (ih h).trans (swap_len h1)
      · rw [if_neg hc] at h
        cases h; rfl
    · rw [if_neg ht] at h
      cases h; rfl

theorem up_bound {n i : ℕ} {g p : ℕ} (hg : g = if hasGrandparent i then grandparent i else n) (hp : p = if hasParent i then parent i else n) :
    (if g < n then Nat.log 2 (g + 1) / 2 + 1 else 0) + (if p < n then Nat.log 2 (p + 1) / 2 + 1 else 0) ≤ Nat.log 2 (i + 1) := by
  have bp : (if p < n then Nat.log 2 (p + 1) / 2 + 1 else 0) ≤ (Nat.log 2 (i + 1) - 1) / 2 + (if i = 0 then 0 else 1) := by
    by_cases h0 : i > 0
    · have hh : hasParent i = true := decide_eq_true h0
      rw [if_pos hh] at hp
      have e : p + 1 = (i + 1) / 2 := by rw [hp, parent_eq]; omega
      rw [e, Nat.log_div_base]
      split_ifs <;> omega
    · have hh : ¬ hasParent i = true := by unfold hasParent; simpa using h0
      rw [if_neg hh] at hp
      rw [hp, if_neg (lt_irrefl _)]
      omega
  have bg : (if g < n then Nat.log 2 (g + 1) / 2 + 1 else 0) ≤ Nat.log 2 (i + 1) / 2 := by
    by_cases h0 : i > 2
    · have hh : hasGrandparent i = true := decide_eq_true h0
      rw [if_pos hh] at hg
      have e : g + 1 = (i + 1) / 4 := by rw [hg, grandparent_eq]; omega
      rw [e, log_quarter]
      have := two_le_log (m := i + 1) (by omega)
      split_ifs <;> omega
    · have hh : ¬ hasGrandparent i = true := by unfold hasGrandparent; simpa using h0
      rw [if_neg hh] at hg
      rw [hg, if_neg (lt_irrefl _)]
      omega
  by_cases h0 : i = 0
  · rw [if_pos h0] at bp
    omega
  · rw [if_neg h0] at bp
    have : 1 ≤ Nat.log 2 (i + 1) := (Nat.le_log_iff_pow_le Nat.one_lt_two (by omega)).2 (by omega)
    omega

theorem heapUp_costs (cmp : α → α → Bool) (v : Vec α) (i : ℕ) : Costs (heapUpC cmp v i) (heapUp cmp v i) (Nat.log 2 (i + 1)) := by
  unfold heapUpC heapUp
  extract_lets onMin imin imax
  have hb : (if imin < v.len then Nat.log 2 (imin + 1) / 2 + 1 else 0) + (if imax < v.len then Nat.log 2 (imax + 1) / 2 + 1 else 0) ≤ Nat.log 2 (i + 1) := by
    by_cases ho : onMin = true
    · exact up_bound (n := v.len) (if_pos ho) (if_pos ho)
    · rw [Nat.add_comm]
      exact up_bound (n := v.len) (if_neg ho) (if_neg ho)
  refine Costs.mono (Costs.bind (upLoop_costs _ _ _ _ _) (C := if imax < v.len then Nat.log 2 (imax + 1) / 2 + 1 else 0) ?_) hb
  rintro ⟨v1, i1⟩ h1
  have hl : v1.len = v.len := upLoop_len h1
  rw [← hl]
  refine (Costs.bind (upLoop_costs _ _ _ _ _) (C := 0) ?_).mono le_rfl
  rintro ⟨v2, i2⟩ h2
  exact Costs.pure _

/-- The bound of the comparisons of `heapDownMin` and `heapDownMax` from a position at distance `d` from the leaves. -/
def downBound (cont : Bool) (d : ℕ) : ℕ := if cont then 7 * (d + 1) else 7 * (d / 2 + 1)

theorem heapDown_costs (better : α → α → Bool) (cont : Bool) (fuel : ℕ) (v : Vec α) (i : ℕ) :
    Costs (heapDownLoopC better cont fuel v i) (heapDownLoop better cont fuel v i) (if i < v.len then downBound cont (Nat.log 2 (v.len / (i + 1))) else 0) := by
  induction fuel generalizing v i with
  | zero => exact (Costs.free _).mono (Nat.zero_le _)
  | succ fuel ih =>
    unfold heapDownLoopC heapDownLoop
    by_cases hi : i < v.len
    · rw [if_pos hi, if_pos hi, if_pos hi]
      set d := Nat.log 2 (v.len / (i + 1)) with hd
      have h7 : 7 ≤ downBound cont d := by unfold downBound; split_ifs <;> omega
      refine (Costs.bind (childBest_costs _ _ _) (C := downBound cont d - 1) ?_).mono (by omega)
      intro ic hic
      obtain ⟨ic', hic', hc1, hc2, -⟩ := childBest_ok better v i
      obtain rfl := Except.ok.inj (hic.symm.trans hic')
      refine (Costs.bind (grandchildBest_costs _ _ _) (C := downBound cont d - 4) ?_).mono (by omega)
      intro ig hig
      obtain ⟨ig', hig', hg1, hg2, -⟩ := grandchildBest_ok better v i
      obtain rfl := Except.ok.inj (hig.symm.trans hig')
      refine (Costs.bind (grandWins_costs _ _ _ _ _) (C := downBound cont d - 6) ?_).mono (by omega)
      intro b hb
      by_cases hbt : b = true
      · rw [if_pos hbt, if_pos hbt]
        have hlt : ig < v.len := by
          by_contra hn
          unfold grandWins at hb
          rw [if_neg hn] at hb
          cases hb
          cases hbt
        refine Costs.free_bind fun v1 h1 => ?_
        refine (Costs.bind (fixParent_costs _ _ _) (C := downBound cont d - 7) ?_).mono (by omega)
        intro v2 h2
        refine (ih _ _).mono ?_
        rw [fixParent_len h2, swap_len h1, if_pos hlt]
        have q : v.len / (ig + 1) ≤ v.len / (i + 1) / 4 := by
          rw [Nat.div_div_eq_div_mul]
          exact Nat.div_le_div_left (by omega) (by omega)
        have q4 : 4 ≤ v.len / (i + 1) := (Nat.le_div_iff_mul_le (by omega)).2 (by omega)
        have q2 := two_le_log q4
        have q3 := Nat.log_mono_right (b := 2) q
        rw [log_quarter, ← hd] at q3
        rw [← hd] at q2
        unfold downBound
        split_ifs <;> omega
      · rw [if_neg hbt, if_neg hbt]
        refine (Costs.bind (childWins_costs _ _ _ _) (C := downBound cont d - 7) ?_).mono (by omega)
        intro c hc
        by_cases hct : c = true
        · rw [if_pos hct, if_pos hct]
          have hlt : ic < v.len := by
            by_contra hn
            unfold childWins at hc
            rw [if_neg hn] at hc
            cases hc
            cases hct
          refine Costs.free_bind fun v1 h1 => ?_
          by_cases hk : cont = true
          · rw [if_pos hk, if_pos hk]
            refine (ih _ _).mono ?_
            rw [swap_len h1, if_pos hlt]
            have q : v.len / (ic + 1) ≤ v.len / (i + 1) / 2 := by
              rw [Nat.div_div_eq_div_mul]
              exact Nat.div_le_div_left (by omega) (by omega)
            have q4 : 2 ≤ v.len / (i + 1) := (Nat.le_div_iff_mul_le (by omega)).2 (by omega)
            have q2 : 1 ≤ Nat.log 2 (v.len / (i + 1)) := (Nat.le_log_iff_pow_le Nat.one_lt_two (by omega)).2 (by omega)
            have q3 := Nat.log_mono_right (b := 2) q
            rw [Nat.log_div_base, ← hd] at q3
            rw [← hd] at q2
            unfold downBound
            rw [if_pos hk, if_pos hk]
            omega
          · rw [if_neg hk, if_neg hk]
            exact (Costs.pure _).mono (Nat.zero_le _)
        · rw [if_neg hct, if_neg hct]
          exact (Costs.pure _).mono (Nat.zero_le _)
    · rw [if_neg hi, if_neg hi, if_neg hi]
      exact Costs.pure _

/-! ### C131 -/

theorem Costs.run {p : Counted β} {q : Outcome β} {B : ℕ} (h : Costs p q B) {r : β} (hr : q = .ok r) (n : ℕ) : ∃ k ≤ B, p n = .ok (r, n + k) := (h n).2 r hr

theorem push_costs (cmp : α → α → Bool) (v : Vec α) (x : α) : Costs (pushC cmp v x) (push cmp v x) (Nat.log 2 (v.len + 1)) := heapUp_costs cmp (v.push x) v.len

theorem popTop_costs (cmp : α → α → Bool) (v : Vec α) : Costs (popTopC cmp v) (popTop cmp v) (7 * (Nat.log 2 (v.len - 1) + 1)) := by
  unfold popTopC popTop
  split_ifs
  · exact (Costs.free _).mono (Nat.zero_le _)
  · refine Costs.free_bind fun v1 h1 => (heapDown_costs _ _ _ _ _).mono ?_
    have e : (popBack v1).len = v.len - 1 := by show v1.len - 1 = _; rw [swap_len h1]
    rw [e]
    unfold downBound
    simp only [Nat.zero_add, Nat.div_one, if_true]
    split_ifs <;> omega

theorem popBottom_costs (cmp : α → α → Bool) (v : Vec α) : Costs (popBottomC cmp v) (popBottom cmp v) (7 * ((Nat.log 2 (v.len - 1) - 1) / 2 + 1) + 1) := by
  unfold popBottomC popBottom
  split_ifs with h0 h1
  · exact (Costs.free _).mono (Nat.zero_le _)
  · exact (Costs.pure _).mono (Nat.zero_le _)
  · refine (Costs.bind (childBest_costs _ _ _) (C := 7 * ((Nat.log 2 (v.len - 1) - 1) / 2 + 1)) ?_).mono (by omega)
    intro im him
    obtain ⟨im', him', hc, -⟩ := childBest_ok (fun a b => cmp b a) v 0
    obtain rfl := Except.ok.inj (him.symm.trans him')
    refine Costs.free_bind fun v1 h1 => (heapDown_costs _ _ _ _ _).mono ?_
    have e : (popBack v1).len = v.len - 1 := by show v1.len - 1 = _; rw [swap_len h1]
    rw [e]
    have q : (v.len - 1) / (im + 1) ≤ (v.len - 1) / 2 := Nat.div_le_div_left (by omega) (by omega)
    have q3 := Nat.log_mono_right (b := 2) q
    rw [Nat.log_div_base] at q3
    unfold downBound
    simp only [Bool.false_eq_true, if_false]
    split_ifs <;> omega

/-- C131: whatever the comparator, `push` into a heap of `n` elements makes at most `log2 (n + 1)` comparisons, `popTop` at most `7 (log2 (n - 1) + 1)` and `popBottom` at most
`7 ((log2 (n - 1) - 1) / 2 + 1) + 1`; the counted operations have the results of the operations. -/
theorem C131_comparisons (cmp : α → α → Bool) (v : Vec α) :
    (∀ x, ∃ v' k, push cmp v x = .ok v' ∧ pushC cmp v x 0 = .ok (v', k) ∧ k ≤ Nat.log 2 (v.len + 1)) ∧
    (v.len ≠ 0 → ∃ v' k, popTop cmp v = .ok v' ∧ popTopC cmp v 0 = .ok (v', k) ∧ k ≤ 7 * (Nat.log 2 (v.len - 1) + 1)) ∧
    (v.len ≠ 0 → ∃ v' k, popBottom cmp v = .ok v' ∧ popBottomC cmp v 0 = .ok (v', k) ∧ k ≤ 7 * ((Nat.log 2 (v.len - 1) - 1) / 2 + 1) + 1) := by
  refine ⟨fun x => ?_, fun h => ?_, fun h => ?_⟩
  · obtain ⟨v', e, -⟩ := push_content cmp v x
    obtain ⟨k, hk, e2⟩ := (push_costs cmp v x).run e 0
    exact ⟨v', k, e, by rw [e2, Nat.zero_add], hk⟩
  · obtain ⟨x, v', -, e, -⟩ := popTop_content cmp v h
    obtain ⟨k, hk, e2⟩ := (popTop_costs cmp v).run e 0
    exact ⟨v', k, e, by rw [e2, Nat.zero_add], hk⟩
  · obtain ⟨x, v', -, e, -⟩ := popBottom_content cmp v h
    obtain ⟨k, hk, e2⟩ := (popBottom_costs cmp v).run e 0
    exact ⟨v', k, e, by rw [e2, Nat.zero_add], hk⟩

theorem step_costs (cmp : α → α → Bool) (v : Vec α) (o : Op α) {m : ℕ} (hm : v.len + 1 ≤ m) :
    Costs (stepC cmp v o) (step cmp v o) (7 * (Nat.log 2 m + 1)) ∧ ∀ v', step cmp v o = .ok v' → v'.len ≤ v.len + 1 := by
  have up : ∀ a, a ≤ m → Nat.log 2 a ≤ Nat.log 2 m := fun a h => Nat.log_mono_right h
  cases o with
  | push x =>
    refine ⟨(push_costs cmp v x).mono (by have := up _ hm; omega), fun v' h => ?_⟩
    obtain ⟨w, e, hl, -⟩ := push_content cmp v x
    obtain rfl := Except.ok.inj (e.symm.trans h)
    omega
  | popTop =>
    refine ⟨(popTop_costs cmp v).mono (by have := up (v.len - 1) (by omega); omega), fun v' h => ?_⟩
    by_cases h0 : v.len = 0
    · have : popTop cmp v = .ok v' := h
      unfold popTop at this
      rw [if_pos h0] at this
      cases this
    · obtain ⟨x, w, -, e, hl, -⟩ := popTop_content cmp v h0
      obtain rfl := Except.ok.inj (e.symm.trans h)
      omega
  | popBottom =>
    by_cases h0 : v.len = 0
    · have e : popBottom cmp v = .error .abort := by unfold popBottom; rw [if_pos h0]
      have ec : popBottomC cmp v = free (.error .abort) := by unfold popBottomC; rw [if_pos h0]
      refine ⟨?_, fun v' h => by cases e.symm.trans h⟩
      show Costs (popBottomC cmp v) (popBottom cmp v) _
      rw [e, ec]
      exact (Costs.free _).mono (Nat.zero_le _)
    · refine ⟨(popBottom_costs cmp v).mono ?_, fun v' h => ?_⟩
      · have a := up (v.len - 1) (by omega)
        have b : 1 ≤ Nat.log 2 m := (Nat.le_log_iff_pow_le Nat.one_lt_two (by omega)).2 (by omega)
        omega
      · obtain ⟨x, w, -, e, hl, -⟩ := popBottom_content cmp v h0
        obtain rfl := Except.ok.inj (e.symm.trans h)
        omega

theorem history_costs (cmp : α → α → Bool) (m : ℕ) (h : List (Op α)) (v : Vec α) (hm : v.len + h.length ≤ m) :
    Costs (h.foldlM (stepC cmp) v) (h.foldlM (step cmp) v) (h.length * (7 * (Nat.log 2 m + 1))) := by
  induction h generalizing v with
  | nil => exact (Costs.pure _).mono (Nat.zero_le _)
  | cons o t ih =>
    rw [List.length_cons] at hm
    obtain ⟨c, hl⟩ := step_costs cmp v o (m := m) (by omega)
    rw [List.foldlM_cons, List.foldlM_cons, List.length_cons, Nat.add_mul, Nat.one_mul, Nat.add_comm]
    exact Costs.bind c fun v' hv => ih v' (by have := hl v' hv; omega)

/-- C131: a history of `m` operations from the empty heap that pops no empty heap makes at most `7 m (log2 m + 1)` comparisons in all. -/
theorem C131_history (cmp : α → α → Bool) (z : α) (h : List (Op α)) (hs : Safe 0 h) :
    ∃ v k, run cmp z h = .ok v ∧ runC cmp z h 0 = .ok (v, k) ∧ k ≤ h.length * (7 * (Nat.log 2 h.length + 1)) := by
  obtain ⟨v, r, -, e, -⟩ := (C19_contents cmp z h).1 hs
  obtain ⟨k, hk, e2⟩ := (history_costs cmp h.length h (Vec.empty z) (by show 0 + _ ≤ _; omega)).run e 0
  exact ⟨v, k, e, by rw [← Nat.zero_add k]; exact e2, hk⟩

/-- Pushing 8, …, 1: the pushes make 0, 1, 1, 2, 2, 2, 2 and 3 comparisons, each the bound `log2 (n + 1)`. -/
example : ((runC ltNat 0 [.push 8, .push 7, .push 6, .push 5, .push 4, .push 3, .push 2, .push 1] 0).toOption.map fun r => (r.1.toList, r.2)) =
    some ([1, 8, 7, 2, 5, 4, 3, 6], 0 + 1 + 1 + 2 + 2 + 2 + 2 + 3) := by decide +kernel

/-- The `popTop` that follows makes 7 comparisons (bound 21), the `popBottom` after it 3 (bound 8). -/
example : ((runC ltNat 0 [.push 8, .push 7, .push 6, .push 5, .push 4, .push 3, .push 2, .push 1, .popTop, .popBottom] 0).toOption.map
    fun r => (r.1.toList, r.2)) = some ([2, 6, 7, 3, 5, 4], 13 + 7 + 3) := by decide +kernel

end Verif.Heap
