import Verif.Interval.Props

/-! Property theorems C35 (see properties.jsonl): exactly when the boustrophedon order moves between adjacent cells. -/
namespace Verif.Interval
open Verif Spec

theorem adjacent_cons {x y : ℤ} {l m : List ℤ} :
    Adjacent (x :: l) (y :: m) ↔ x = y ∧ Adjacent l m ∨ (y = x + 1 ∨ y = x - 1) ∧ l = m := by
  constructor
  · rintro ⟨hl, d, hd, h1, h2⟩
    have hl' : l.length = m.length := by simpa using hl
    cases d with
    | zero =>
      refine Or.inr ⟨by simpa using h1, List.ext_getElem hl' fun i hi hi' => ?_⟩
      have := h2 (i + 1) (by simpa using hi) (by omega)
      simp only [List.getD_eq_getElem?_getD, List.getElem?_cons_succ, List.getElem?_eq_getElem hi, List.getElem?_eq_getElem hi', Option.getD_some] at this
      exact this.symm
    | succ d =>
      refine Or.inl ⟨?_, hl', d, by simpa using hd, by simpa using h1, fun e he hne => ?_⟩
      · have := h2 0 (by simp) (by omega)
        simpa using this.symm
      · have := h2 (e + 1) (by simpa using he) (by omega)
        simpa using this
  · rintro (⟨rfl, h⟩ | ⟨h, rfl⟩)
    · exact adjacent_cons_tail h
    · exact adjacent_cons_head h

/-- All steps of the boustrophedon order are between adjacent cells. -/
def Steps (iv : Interval) : Prop := ∀ p, 0 ≤ p → p + 1 < card iv → Adjacent (fold iv (digits p iv)) (fold iv (digits (p + 1) iv))

/-- All steps change the parity of the first digit. -/
def Flips (iv : Interval) : Prop := ∀ p, 0 ≤ p → p + 1 < card iv → oddOf (digits p iv) ≠ oddOf (digits (p + 1) iv)

theorem flips_iff {b : Axis} {v : Interval} (hb : 0 < b.dim) (hv : ∀ a ∈ v, 0 < a.dim) : Flips (b :: v) ↔ b.dim % 2 = 0 ∨ card v = 1 := by
  have hcv := card_pos hv
  constructor
  · intro h
    by_contra hn
    have h1 : b.dim % 2 ≠ 0 := fun e => hn (Or.inl e)
    have h2 : card v ≠ 1 := fun e => hn (Or.inr e)
    refine h (b.dim - 1) (by omega) ?_ ?_
    · rw [card_cons]
      have : 2 ≤ card v := by omega
      nlinarith
    · simp only [digits, oddOf]
      rw [Int.emod_eq_of_lt (a := b.dim - 1) (by omega) (by omega), show b.dim - 1 + 1 = b.dim by omega, Int.emod_self]
      have : (b.dim - 1) % 2 = 0 := by omega
      rw [this]
      rfl
  · intro h p h0 hp
    by_cases hc : p % b.dim + 1 < b.dim
    · obtain ⟨f1, -⟩ := succ_nocarry hb hc
      have := Int.emod_nonneg p hb.ne'
      simp only [digits, f1, oddOf, ne_eq, decide_eq_decide]
      omega
    · obtain ⟨f1, f2, f3⟩ := succ_carry hb hc
      rcases h with h | h
      · simp only [digits, f1, f2, oddOf, ne_eq, decide_eq_decide]
        omega
      · rw [card_cons, h, mul_one] at hp
        rw [Int.emod_eq_of_lt (by omega) (by omega)] at hc
        omega

theorem steps_cons {a : Axis} {iv : Interval} (ha : 0 < a.dim) (hv : ∀ b ∈ iv, 0 < b.dim) : Steps (a :: iv) ↔ Steps iv ∧ (a.dim = 1 ∨ Flips iv) := by
  have key : ∀ q, 0 ≤ q → q + 1 < card iv → (Adjacent (fold (a :: iv) (digits (a.dim * q + (a.dim - 1)) (a :: iv)))
      (fold (a :: iv) (digits (a.dim * q + (a.dim - 1) + 1) (a :: iv))) ↔ Adjacent (fold iv (digits q iv)) (fold iv (digits (q + 1) iv)) ∧
        (a.dim = 1 ∨ oddOf (digits q iv) ≠ oddOf (digits (q + 1) iv))) := by
    intro q h0 hq
    have e0 : (a.dim * q + (a.dim - 1)) % a.dim = a.dim - 1 := by
      rw [add_comm, Int.add_mul_emod_self_left, Int.emod_eq_of_lt (by omega) (by omega)]
    have e3 : (a.dim * q + (a.dim - 1)) / a.dim = q := by
      rw [add_comm, Int.add_mul_ediv_left _ _ ha.ne', Int.ediv_eq_zero_of_lt (by omega) (by omega), zero_add]
    obtain ⟨-, f2, f3⟩ := succ_carry (p := a.dim * q + (a.dim - 1)) ha (by omega)
    rw [e3] at f3
    simp only [digits, e0, e3, f2, f3, fold]
    rw [adjacent_cons]
    have hne : fold iv (digits q iv) ≠ fold iv (digits (q + 1) iv) := by
      intro e
      have e' := fold_inj (digits_isDigits hv _) (digits_isDigits hv _) e
      have h1 := value_digits hv (p := q) h0 (by omega)
      have h2 := value_digits hv (p := q + 1) (by omega) hq
      rw [e', h2] at h1
      omega
    cases hA : oddOf (digits q iv) <;> cases hB : oddOf (digits (q + 1) iv) <;> simp [hne]
    · rw [and_comm, show (a.dim - 1 = 0) = (a.dim = 1) from propext (by omega)]
    · rw [and_comm, show (a.dim - 1 = 0) = (a.dim = 1) from propext (by omega)]
  constructor
  · intro h
    have hk : ∀ q, 0 ≤ q → q + 1 < card iv → Adjacent (fold iv (digits q iv)) (fold iv (digits (q + 1) iv)) ∧
        (a.dim = 1 ∨ oddOf (digits q iv) ≠ oddOf (digits (q + 1) iv)) := by
      intro q h0 hq
      refine (key q h0 hq).1 (h _ (by have := mul_nonneg ha.le h0; omega) ?_)
      rw [card_cons]
      nlinarith
    refine ⟨fun q h0 hq => (hk q h0 hq).1, ?_⟩
    by_cases h1 : a.dim = 1
    · exact Or.inl h1
    · exact Or.inr fun q h0 hq => ((hk q h0 hq).2).resolve_left h1
  · rintro ⟨h1, h2⟩ p h0 hp
    by_cases hc : p % a.dim + 1 < a.dim
    · obtain ⟨e1, e2⟩ := succ_nocarry ha hc
      simp only [digits, e1, e2, fold]
      apply adjacent_cons_head
      split_ifs <;> omega
    · obtain ⟨e1, e2, e3⟩ := succ_carry ha hc
      have hp' : p / a.dim + 1 < card iv := by rw [← e3]; exact div_lt_card ha hp
      have h0' : 0 ≤ p / a.dim := Int.ediv_nonneg h0 ha.le
      have e : p = a.dim * (p / a.dim) + (a.dim - 1) := by
        have := Int.emod_add_mul_ediv p a.dim
        omega
      rw [e]
      exact (key _ h0' hp').2 ⟨h1 _ h0' hp', h2.imp_right fun h => h _ h0' hp'⟩

/-- C35: exactly on these intervals all steps are between adjacent cells: of each two consecutive coordinates the first has a single value, or the second has an
even number of values, or all the following ones have a single value. -/
theorem C35_iff (iv : Interval) (h : Proper iv) (hc : card iv ≤ 2147483647) :
    (∀ p, 0 ≤ p → p + 1 < card iv → ∃ x y, boustroGetIndices iv p = .ok x ∧ boustroGetIndices iv (p + 1) = .ok y ∧ Adjacent x y) ↔
    ∀ u a b v, iv = u ++ a :: b :: v → a.dim = 1 ∨ b.dim % 2 = 0 ∨ ∀ c ∈ v, c.dim = 1 := by
  have h1 : (∀ p, 0 ≤ p → p + 1 < card iv → ∃ x y, boustroGetIndices iv p = .ok x ∧ boustroGetIndices iv (p + 1) = .ok y ∧ Adjacent x y) ↔ Steps iv := by
    refine forall_congr' fun p => forall_congr' fun h0 => forall_congr' fun hp => ?_
    rw [boustroGetIndices_ok h h0 (by unfold I32; omega), boustroGetIndices_ok h (p := p + 1) (by omega) (by unfold I32; omega)]
    constructor
    · rintro ⟨x, y, e1, e2, ha⟩
      rw [← Except.ok.inj e1, ← Except.ok.inj e2] at ha
      exact ha
    · exact fun ha => ⟨_, _, rfl, rfl, ha⟩
  rw [h1]
  have hpos := h.pos
  clear h1 h hc
  have card_one : ∀ v : Interval, (∀ c ∈ v, 0 < c.dim) → (card v = 1 ↔ ∀ c ∈ v, c.dim = 1) := by
    intro v hv
    induction v with
    | nil => simp [card]
    | cons c v ih =>
      have hp := hv c (by simp)
      have ht : ∀ d ∈ v, 0 < d.dim := fun d hd => hv d (by simp [hd])
      have hcv := card_pos ht
      rw [card_cons, List.forall_mem_cons, ← ih ht]
      constructor
      · intro e
        have a1 : c.dim ≤ 1 := by nlinarith
        have a2 : c.dim = 1 := by omega
        rw [a2, one_mul] at e
        exact ⟨a2, e⟩
      · rintro ⟨e1, e2⟩
        rw [e1, e2, one_mul]
  induction iv with
  | nil =>
    refine ⟨fun _ u a b v e => ?_, fun _ p h0 hp => ?_⟩
    · exact absurd (congrArg List.length e) (by simp)
    · simp only [card, List.map_nil, List.prod_nil] at hp; omega
  | cons c iv ih =>
    have hc := hpos c (by simp)
    have ht : ∀ d ∈ iv, 0 < d.dim := fun d hd => hpos d (by simp [hd])
    have ih' := ih ht
    refine (steps_cons hc ht).trans ((and_congr_left' ih').trans ?_)
    constructor
    · rintro ⟨h1, h2⟩ u a b v e
      cases u with
      | nil =>
        simp only [List.nil_append, List.cons.injEq] at e
        obtain ⟨rfl, rfl⟩ := e
        rcases h2 with h2 | h2
        · exact Or.inl h2
        · rw [flips_iff (ht b (by simp)) (fun d hd => ht d (by simp [hd])), card_one _ (fun d hd => ht d (by simp [hd]))] at h2
          exact Or.inr h2
      | cons w u =>
        simp only [List.cons_append, List.cons.injEq] at e
        exact h1 u a b v e.2
    · intro h
      refine ⟨fun u a b v e => h (c :: u) a b v (by rw [e]; rfl), ?_⟩
      match iv, ht, h with
      | [], _, _ =>
        refine Or.inr fun p h0 hp => ?_
        simp only [card, List.map_nil, List.prod_nil] at hp; omega
      | b :: v, ht, h =>
        rw [flips_iff (ht b (by simp)) (fun d hd => ht d (by simp [hd])), card_one _ (fun d hd => ht d (by simp [hd]))]
        exact h [] c b v rfl

/-- A box with an odd inner dimension whose first coordinate has a single value: adjacent; 2 x 3 x 2 is not. -/
example : boustroGetIndices [⟨0, 1⟩, ⟨0, 3⟩, ⟨0, 2⟩] 2 = .ok [0, 2, 0] ∧ boustroGetIndices [⟨0, 1⟩, ⟨0, 3⟩, ⟨0, 2⟩] 3 = .ok [0, 2, 1] ∧
    boustroGetIndices [⟨0, 2⟩, ⟨0, 3⟩, ⟨0, 2⟩] 5 = .ok [1, 2, 0] ∧ boustroGetIndices [⟨0, 2⟩, ⟨0, 3⟩, ⟨0, 2⟩] 6 = .ok [0, 2, 1] := by decide +kernel

end Verif.Interval
