import Verif.Interval.Spec
import Mathlib.Tactic.Ring
import Mathlib.Tactic.Linarith
import Mathlib.Algebra.Order.BigOperators.Group.List

namespace Verif.Interval
open Spec

theorem int_ok {z : ℤ} (h : I32 z) : Cxx.int z = .ok z := by
  unfold I32 at h; unfold Cxx.int; rw [if_pos h]

theorem int_bad {z : ℤ} (h : ¬ I32 z) : Cxx.int z = .error (.ub .overflow) := by
  unfold I32 at h; unfold Cxx.int; rw [if_neg h]

theorem idiv_ok {a b : ℤ} (ha : 0 ≤ a) (ha' : I32 a) (hb : 0 < b) : Cxx.idiv a b = .ok (a / b) := by
  unfold Cxx.idiv
  rw [if_neg (by omega), Int.tdiv_eq_ediv_of_nonneg ha, int_ok]
  have h1 : 0 ≤ a / b := Int.ediv_nonneg ha hb.le
  have h2 : a / b ≤ a := Int.ediv_le_self _ ha
  unfold I32 at *; omega

theorem imod_ok {a b : ℤ} (ha : 0 ≤ a) (ha' : I32 a) (hb : 0 < b) : Cxx.imod a b = .ok (a % b) := by
  unfold Cxx.imod
  rw [idiv_ok ha ha' hb]
  simp only [bind, Except.bind, pure, Except.pure]
  rw [Int.tmod_eq_emod_of_nonneg ha]

theorem card_pos {iv : Interval} (h : ∀ a ∈ iv, 0 < a.dim) : 0 < card iv := by
  unfold card
  induction iv with
  | nil => simp
  | cons a iv ih =>
    simp only [List.map_cons, List.prod_cons]
    exact mul_pos (h a (by simp)) (ih (fun b hb => h b (by simp [hb])))

theorem card_cons (a : Axis) (iv : Interval) : card (a :: iv) = a.dim * card iv := by simp [card]

/-- Horner form of the rank. -/
theorem rank_cons (a : Axis) (iv : Interval) (i : ℤ) (is : List ℤ) :
    rank (a :: iv) (i :: is) = (i - a.min) + a.dim * rank iv is := by
  unfold rank
  refine (Fin.sum_univ_succ (n := iv.length) _).trans ?_
  congr 1
  · have : ∀ (n : ℕ) (f : Fin n → ℤ), n = 0 → ∏ e, f e = 1 := by rintro _ f rfl; simp
    exact (congrArg _ (this _ _ rfl)).trans (by simp)
  · rw [Finset.mul_sum]
    apply Finset.sum_congr rfl
    intro d _
    simp only [Fin.val_succ, List.getD_cons_succ]
    rw [Fin.prod_univ_succ]
    simp
    ring

theorem rank_nil (is : List ℤ) : rank [] is = 0 := by simp [rank]

/-- The digits of a position. -/
def digits (p : ℤ) : Interval → List ℤ
  | [] => []
  | a :: iv => p % a.dim :: digits (p / a.dim) iv

/-- The cell of a position in raster order. -/
def cell (p : ℤ) : Interval → List ℤ
  | [] => []
  | a :: iv => (a.min + p % a.dim) :: cell (p / a.dim) iv

theorem mem_cons {a : Axis} {iv : Interval} {is : List ℤ} :
    Mem (a :: iv) is ↔ ∃ i js, is = i :: js ∧ (a.min ≤ i ∧ i < a.min + a.dim) ∧ Mem iv js := by
  unfold Mem
  rw [List.forall₂_cons_left_iff]
  constructor
  · rintro ⟨i, js, h1, h2, rfl⟩; exact ⟨i, js, rfl, h1, h2⟩
  · rintro ⟨i, js, rfl, h1, h2⟩; exact ⟨i, js, h1, h2, rfl⟩

theorem mem_cons_cons {a : Axis} {iv : Interval} {i : ℤ} {is : List ℤ} :
    Mem (a :: iv) (i :: is) ↔ (a.min ≤ i ∧ i < a.min + a.dim) ∧ Mem iv is := by
  unfold Mem; rw [List.forall₂_cons]

theorem mem_nil {is : List ℤ} : Mem [] is ↔ is = [] := by
  unfold Mem; rw [List.forall₂_nil_left_iff]

theorem mem_length {iv : Interval} {is : List ℤ} (h : Mem iv is) : is.length = iv.length := (List.Forall₂.length_eq h).symm

theorem cell_mem {iv : Interval} (h : ∀ a ∈ iv, 0 < a.dim) (p : ℤ) : Mem iv (cell p iv) := by
  induction iv generalizing p with
  | nil => rw [mem_nil]; rfl
  | cons a iv ih =>
    have ha := h a (by simp)
    rw [cell, mem_cons_cons]
    have h1 := Int.emod_nonneg p ha.ne'
    have h2 := Int.emod_lt_of_pos p ha
    exact ⟨by omega, ih (fun b hb => h b (by simp [hb])) _⟩

theorem div_lt_card {a : Axis} {iv : Interval} (ha : 0 < a.dim) {p : ℤ} (hp : p < card (a :: iv)) : p / a.dim < card iv := by
  rw [card_cons] at hp
  exact Int.ediv_lt_of_lt_mul ha (by rw [mul_comm]; exact hp)

theorem rank_cell {iv : Interval} (h : ∀ a ∈ iv, 0 < a.dim) {p : ℤ} (h0 : 0 ≤ p) (hp : p < card iv) :
    rank iv (cell p iv) = p := by
  induction iv generalizing p with
  | nil => simp only [card, List.map_nil, List.prod_nil] at hp; rw [rank_nil]; omega
  | cons a iv ih =>
    have ha := h a (by simp)
    rw [cell, rank_cons, ih (fun b hb => h b (by simp [hb])) (Int.ediv_nonneg h0 ha.le) (div_lt_card ha hp)]
    have := Int.emod_add_mul_ediv p a.dim
    linarith

theorem rank_bounds {iv : Interval} (h : ∀ a ∈ iv, 0 < a.dim) {is : List ℤ} (hm : Mem iv is) :
    0 ≤ rank iv is ∧ rank iv is < card iv := by
  induction iv generalizing is with
  | nil => rw [rank_nil]; simp [card]
  | cons a iv ih =>
    obtain ⟨i, js, rfl, h1, h2⟩ := mem_cons.1 hm
    have ha := h a (by simp)
    obtain ⟨h3, h4⟩ := ih (fun b hb => h b (by simp [hb])) h2
    rw [rank_cons, card_cons]
    have h5 : a.dim * rank iv js ≤ a.dim * (card iv - 1) := mul_le_mul_of_nonneg_left (by omega) ha.le
    have h6 : 0 ≤ a.dim * rank iv js := mul_nonneg ha.le h3
    constructor
    · omega
    · linarith

theorem cell_rank {iv : Interval} (h : ∀ a ∈ iv, 0 < a.dim) {is : List ℤ} (hm : Mem iv is) : cell (rank iv is) iv = is := by
  induction iv generalizing is with
  | nil => rw [mem_nil] at hm; rw [hm]; rfl
  | cons a iv ih =>
    obtain ⟨i, js, rfl, h1, h2⟩ := mem_cons.1 hm
    have ha := h a (by simp)
    have h3 := ih (fun b hb => h b (by simp [hb])) h2
    rw [cell, rank_cons, Int.add_mul_emod_self_left, Int.emod_eq_of_lt (by omega) (by omega),
      Int.add_mul_ediv_left _ _ ha.ne', Int.ediv_eq_zero_of_lt (by omega) (by omega), zero_add, h3]
    congr 1; omega

/-- The hypotheses on the box used throughout. -/
theorem Spec.Proper.pos {iv : Interval} (h : Proper iv) : ∀ a ∈ iv, 0 < a.dim := fun a ha => (h a ha).1

theorem Spec.Proper.tail {a : Axis} {iv : Interval} (h : Proper (a :: iv)) : Proper iv := fun b hb => h b (by simp [hb])

theorem card_tail_le {a : Axis} {iv : Interval} (h : Proper (a :: iv)) : card iv ≤ card (a :: iv) := by
  rw [card_cons]
  have h1 := card_pos h.tail.pos
  have h2 := h.pos a (by simp)
  nlinarith

theorem staticGetPos_ok {iv : Interval} (h : Proper iv) (hc : card iv ≤ 2147483647) {is : List ℤ} (hm : Mem iv is) :
    staticGetPos iv is = .ok (rank iv is) := by
  induction iv generalizing is with
  | nil => rw [rank_nil]; rfl
  | cons a iv ih =>
    obtain ⟨i, js, rfl, h1, h2⟩ := mem_cons.1 hm
    have h3 := ih h.tail (le_trans (card_tail_le h) hc) h2
    have hb := rank_bounds h.pos hm
    have hb' := rank_bounds h.tail.pos h2
    obtain ⟨ha, ha1, ha2, ha3⟩ := h a (by simp)
    rw [rank_cons] at hb ⊢
    have h6 : 0 ≤ a.dim * rank iv js := mul_nonneg ha.le hb'.1
    unfold staticGetPos
    simp only [h3, bind, Except.bind]
    rw [int_ok (z := i - a.min) (by unfold I32 at *; omega)]
    simp only
    rw [int_ok (z := a.dim * rank iv js) (by unfold I32 at *; omega)]
    simp only
    rw [int_ok (by unfold I32 at *; omega)]

theorem staticGetIndices_ok {iv : Interval} (h : Proper iv) {p : ℤ} (h0 : 0 ≤ p) (hp : I32 p) :
    staticGetIndices p iv = .ok (cell p iv) := by
  induction iv generalizing p with
  | nil => rfl
  | cons a iv ih =>
    obtain ⟨ha, ha1, ha2, ha3⟩ := h a (by simp)
    have h1 := Int.emod_nonneg p ha.ne'
    have h2 := Int.emod_lt_of_pos p ha
    have h3 := Int.ediv_nonneg h0 ha.le
    have h4 := Int.ediv_le_self a.dim h0
    unfold staticGetIndices
    simp only [imod_ok h0 hp ha, idiv_ok h0 hp ha, bind, Except.bind]
    rw [int_ok (by unfold I32 at *; omega)]
    simp only
    rw [ih h.tail h3 (by unfold I32 at *; omega)]
    rfl

theorem toSize_nat {z : ℤ} (h0 : 0 ≤ z) (h : z < 18446744073709551616) : (Cxx.toSize z : ℤ) = z := by
  unfold Cxx.toSize
  rw [Int.emod_eq_of_lt h0 h]; omega

/-- The conversion to `size_t` and back is harmless for `int` results. -/
theorem ofSize_add {m x : ℤ} (hx : 0 ≤ x) (hx' : x ≤ 2147483647) (hs : I32 (m + x)) :
    Cxx.ofSize ((Cxx.toSize m + x.toNat) % 18446744073709551616) = m + x := by
  unfold Cxx.ofSize Cxx.toSize I32 at *
  rw [Int.bmod_def]
  push_cast
  rw [Int.toNat_of_nonneg (Int.emod_nonneg _ (by norm_num)), Int.toNat_of_nonneg hx]
  split_ifs <;> omega

theorem rasterLoop_ok {iv : Interval} (h : Proper iv) {p : ℕ} (hp : (p : ℤ) ≤ 2147483647) :
    rasterLoop p iv = .ok (cell p iv) := by
  induction iv generalizing p with
  | nil => rfl
  | cons a iv ih =>
    obtain ⟨ha, ha1, ha2, ha3⟩ := h a (by simp)
    have hd : (Cxx.toSize a.dim : ℤ) = a.dim := toSize_nat ha.le (by unfold I32 at *; omega)
    have h1 := Int.emod_nonneg (p : ℤ) ha.ne'
    have h2 := Int.emod_lt_of_pos (p : ℤ) ha
    have h3 : (p % Cxx.toSize a.dim : ℕ) = ((p : ℤ) % a.dim).toNat := by
      have : ((p % Cxx.toSize a.dim : ℕ) : ℤ) = (p : ℤ) % a.dim := by push_cast; rw [hd]
      omega
    have h4 : ((p / Cxx.toSize a.dim : ℕ) : ℤ) = (p : ℤ) / a.dim := by push_cast; rw [hd]
    unfold rasterLoop
    rw [if_neg (by omega), ih h.tail (by rw [h4]; exact le_trans (Int.ediv_le_self a.dim (by omega)) hp), h4, h3,
      ofSize_add h1 (by unfold I32 at *; omega) (by unfold I32 at *; omega)]
    rfl

theorem rasterGetIndices_ok {iv : Interval} (h : Proper iv) {p : ℤ} (h0 : 0 ≤ p) (hp : I32 p) :
    rasterGetIndices iv p = .ok (cell p iv) := by
  unfold rasterGetIndices
  have h1 : (Cxx.toSize p : ℤ) = p := toSize_nat h0 (by unfold I32 at *; omega)
  rw [rasterLoop_ok h (by unfold I32 at *; omega), h1]

/-- `RasterIndexer::getPos` adds the index before subtracting the minimum: the sum must not overflow. -/
theorem rasterGetPos_ok {iv : Interval} (h : Proper iv) (hc : card iv ≤ 2147483647)
    (hs : ∀ a jv, a :: jv <:+ iv → a.min + card (a :: jv) - 1 ≤ 2147483647) {is : List ℤ} (hm : Mem iv is) :
    rasterGetPos iv is = .ok (rank iv is) := by
  induction iv generalizing is with
  | nil => rw [rank_nil]; rfl
  | cons a iv ih =>
    obtain ⟨i, js, rfl, h1, h2⟩ := mem_cons.1 hm
    have hle := card_tail_le h
    have h3 := ih h.tail (le_trans hle hc) (fun b jv hb => hs b jv (hb.trans (List.suffix_cons _ _))) h2
    have hb := rank_bounds h.pos hm
    have hb' := rank_bounds h.tail.pos h2
    obtain ⟨ha, ha1, ha2, ha3⟩ := h a (by simp)
    have hsa := hs a iv List.suffix_rfl
    rw [rank_cons] at hb ⊢
    have h6 : 0 ≤ a.dim * rank iv js := mul_nonneg ha.le hb'.1
    unfold rasterGetPos
    simp only [h3, bind, Except.bind]
    rw [mul_comm, int_ok (z := a.dim * rank iv js) (by unfold I32 at *; omega)]
    simp only
    rw [int_ok (z := a.dim * rank iv js + i) (by unfold I32 at *; omega)]
    simp only
    rw [int_ok (by unfold I32 at *; omega)]
    congr 1; omega

/-! ### Boustrophedon -/

/-- The variable `odd` after the coordinates of `xs`. -/
def oddOf : List ℤ → Bool
  | [] => false
  | x :: _ => decide (x % 2 = 1)

/-- The second loop without overflow checks. -/
def fold : Interval → List ℤ → List ℤ
  | a :: iv, x :: xs => (if oddOf xs then a.dim - x - 1 + a.min else x + a.min) :: fold iv xs
  | _, _ => []

/-- Digits in range. -/
def IsDigits (iv : Interval) (xs : List ℤ) : Prop := List.Forall₂ (fun (a : Axis) x => 0 ≤ x ∧ x < a.dim) iv xs

theorem isDigits_cons {a : Axis} {iv : Interval} {xs : List ℤ} :
    IsDigits (a :: iv) xs ↔ ∃ x ys, xs = x :: ys ∧ (0 ≤ x ∧ x < a.dim) ∧ IsDigits iv ys := by
  unfold IsDigits
  rw [List.forall₂_cons_left_iff]
  constructor
  · rintro ⟨i, js, h1, h2, rfl⟩; exact ⟨i, js, rfl, h1, h2⟩
  · rintro ⟨i, js, rfl, h1, h2⟩; exact ⟨i, js, h1, h2, rfl⟩

theorem digits_isDigits {iv : Interval} (h : ∀ a ∈ iv, 0 < a.dim) (p : ℤ) : IsDigits iv (digits p iv) := by
  induction iv generalizing p with
  | nil => exact List.Forall₂.nil
  | cons a iv ih =>
    have ha := h a (by simp)
    exact List.Forall₂.cons ⟨Int.emod_nonneg p ha.ne', Int.emod_lt_of_pos p ha⟩ (ih (fun b hb => h b (by simp [hb])) _)

theorem boustroDigits_ok {iv : Interval} (h : Proper iv) {p : ℤ} (h0 : 0 ≤ p) (hp : I32 p) :
    boustroDigits p iv = .ok (digits p iv) := by
  induction iv generalizing p with
  | nil => rfl
  | cons a iv ih =>
    obtain ⟨ha, ha1, ha2, ha3⟩ := h a (by simp)
    have h3 := Int.ediv_nonneg h0 ha.le
    have h4 := Int.ediv_le_self a.dim h0
    unfold boustroDigits
    simp only [imod_ok h0 hp ha, idiv_ok h0 hp ha, bind, Except.bind]
    rw [ih h.tail h3 (by unfold I32 at *; omega)]
    rfl

theorem boustroFold_ok {iv : Interval} (h : Proper iv) {xs : List ℤ} (hx : IsDigits iv xs) :
    boustroFold iv xs = .ok (if oddOf xs then 1 else 0, fold iv xs) := by
  induction iv generalizing xs with
  | nil =>
    unfold IsDigits at hx
    rw [List.forall₂_nil_left_iff] at hx
    subst hx; rfl
  | cons a iv ih =>
    obtain ⟨x, ys, rfl, h1, h2⟩ := isDigits_cons.1 hx
    obtain ⟨ha, ha1, ha2, ha3⟩ := h a (by simp)
    unfold boustroFold
    simp only [ih h.tail h2, bind, Except.bind, pure, Except.pure]
    have ho : x.tmod 2 = if oddOf (x :: ys) then 1 else 0 := by
      rw [Int.tmod_eq_emod_of_nonneg h1.1]
      simp only [oddOf, decide_eq_true_eq]
      split_ifs <;> omega
    by_cases hodd : oddOf ys = true
    · simp only [hodd, if_true]
      rw [int_ok (z := a.dim - x) (by unfold I32 at *; omega)]
      rw [if_pos (by decide)]
      simp only
      rw [int_ok (z := a.dim - x - 1) (by unfold I32 at *; omega)]
      simp only
      rw [int_ok (by unfold I32 at *; omega)]
      simp only [ho, fold, hodd, if_true]
    · simp only [Bool.not_eq_true] at hodd
      simp only [hodd, Bool.false_eq_true, if_false, ne_eq, not_true_eq_false]
      rw [int_ok (by unfold I32 at *; omega)]
      simp only [ho, fold, hodd, Bool.false_eq_true, if_false]

theorem boustroGetIndices_ok {iv : Interval} (h : Proper iv) {p : ℤ} (h0 : 0 ≤ p) (hp : I32 p) :
    boustroGetIndices iv p = .ok (fold iv (digits p iv)) := by
  unfold boustroGetIndices
  simp only [boustroDigits_ok h h0 hp, bind, Except.bind, boustroFold_ok h (digits_isDigits h.pos p)]
  rfl

theorem fold_mem {iv : Interval} {xs : List ℤ} (hx : IsDigits iv xs) : Mem iv (fold iv xs) := by
  induction iv generalizing xs with
  | nil => unfold IsDigits at hx; rw [List.forall₂_nil_left_iff] at hx; subst hx; exact List.Forall₂.nil
  | cons a iv ih =>
    obtain ⟨x, ys, rfl, h1, h2⟩ := isDigits_cons.1 hx
    rw [fold, mem_cons_cons]
    refine ⟨?_, ih h2⟩
    split_ifs <;> omega

theorem fold_inj {iv : Interval} {xs ys : List ℤ} (hx : IsDigits iv xs) (hy : IsDigits iv ys) (h : fold iv xs = fold iv ys) :
    xs = ys := by
  induction iv generalizing xs ys with
  | nil =>
    unfold IsDigits at hx hy
    rw [List.forall₂_nil_left_iff] at hx hy
    rw [hx, hy]
  | cons a iv ih =>
    obtain ⟨x, xs, rfl, h1, h2⟩ := isDigits_cons.1 hx
    obtain ⟨y, ys, rfl, h3, h4⟩ := isDigits_cons.1 hy
    rw [fold, fold, List.cons.injEq] at h
    have := ih h2 h4 h.2
    subst this
    have h5 := h.1
    congr 1
    split_ifs at h5 <;> omega

theorem fold_surj {iv : Interval} {is : List ℤ} (hm : Mem iv is) : ∃ xs, IsDigits iv xs ∧ fold iv xs = is := by
  induction iv generalizing is with
  | nil => rw [mem_nil] at hm; subst hm; exact ⟨[], List.Forall₂.nil, rfl⟩
  | cons a iv ih =>
    obtain ⟨i, js, rfl, h1, h2⟩ := mem_cons.1 hm
    obtain ⟨xs, hx, rfl⟩ := ih h2
    by_cases ho : oddOf xs = true
    · refine ⟨(a.dim - (i - a.min) - 1) :: xs, List.Forall₂.cons ⟨by omega, by omega⟩ hx, ?_⟩
      simp only [fold, ho, if_true]
      congr 1; omega
    · refine ⟨(i - a.min) :: xs, List.Forall₂.cons ⟨by omega, by omega⟩ hx, ?_⟩
      simp only [fold, ho, if_false]
      simp

/-- Value of a digit sequence. -/
def value : Interval → List ℤ → ℤ
  | a :: iv, x :: xs => x + a.dim * value iv xs
  | _, _ => 0

theorem value_bounds {iv : Interval} {xs : List ℤ} (h : ∀ a ∈ iv, 0 < a.dim) (hx : IsDigits iv xs) :
    0 ≤ value iv xs ∧ value iv xs < card iv := by
  induction iv generalizing xs with
  | nil => simp [value, card]
  | cons a iv ih =>
    obtain ⟨x, ys, rfl, h1, h2⟩ := isDigits_cons.1 hx
    have ha := h a (by simp)
    obtain ⟨h3, h4⟩ := ih (fun b hb => h b (by simp [hb])) h2
    rw [value, card_cons]
    have h5 : a.dim * value iv ys ≤ a.dim * (card iv - 1) := mul_le_mul_of_nonneg_left (by omega) ha.le
    have h6 : 0 ≤ a.dim * value iv ys := mul_nonneg ha.le h3
    constructor
    · omega
    · linarith

theorem digits_value {iv : Interval} {xs : List ℤ} (h : ∀ a ∈ iv, 0 < a.dim) (hx : IsDigits iv xs) :
    digits (value iv xs) iv = xs := by
  induction iv generalizing xs with
  | nil => unfold IsDigits at hx; rw [List.forall₂_nil_left_iff] at hx; subst hx; rfl
  | cons a iv ih =>
    obtain ⟨x, ys, rfl, h1, h2⟩ := isDigits_cons.1 hx
    have ha := h a (by simp)
    rw [value, digits, Int.add_mul_emod_self_left, Int.emod_eq_of_lt (by omega) (by omega),
      Int.add_mul_ediv_left _ _ ha.ne', Int.ediv_eq_zero_of_lt (by omega) (by omega), zero_add,
      ih (fun b hb => h b (by simp [hb])) h2]

theorem value_digits {iv : Interval} (h : ∀ a ∈ iv, 0 < a.dim) {p : ℤ} (h0 : 0 ≤ p) (hp : p < card iv) :
    value iv (digits p iv) = p := by
  induction iv generalizing p with
  | nil => simp only [card, List.map_nil, List.prod_nil] at hp; simp only [value, digits]; omega
  | cons a iv ih =>
    have ha := h a (by simp)
    rw [digits, value, ih (fun b hb => h b (by simp [hb])) (Int.ediv_nonneg h0 ha.le) (div_lt_card ha hp)]
    have := Int.emod_add_mul_ediv p a.dim
    linarith

/-! ### Adjacency -/

/-- The condition under which consecutive cells are adjacent: for each two consecutive coordinates that are followed by a
third one, the first has a single value or the second an even number of values. -/
def Smooth : Interval → Prop
  | a :: b :: c :: iv => (a.dim = 1 ∨ b.dim % 2 = 0) ∧ Smooth (b :: c :: iv)
  | _ => True

theorem Smooth.tail {a : Axis} {iv : Interval} (h : Smooth (a :: iv)) : Smooth iv := by
  match iv, h with
  | [], _ => trivial
  | [_], _ => trivial
  | _ :: _ :: _, h => exact h.2

theorem smooth_of_interior {iv : Interval} (h : ∀ d, 1 ≤ d → ∀ h' : d + 1 < iv.length, iv[d].dim % 2 = 0) : Smooth iv := by
  induction iv with
  | nil => trivial
  | cons a iv ih =>
    match iv, ih, h with
    | [], _, _ => trivial
    | [_], _, _ => trivial
    | b :: c :: iv, ih, h =>
      refine ⟨Or.inr (h 1 (le_refl _) (by simp)), ih ?_⟩
      intro d hd h'
      exact h (d + 1) (by omega) (by simp only [List.length_cons] at h' ⊢; omega)

theorem adjacent_cons_head {x y : ℤ} {l : List ℤ} (h : y = x + 1 ∨ y = x - 1) : Adjacent (x :: l) (y :: l) := by
  refine ⟨rfl, 0, by simp, by simpa using h, ?_⟩
  intro e _ he
  obtain ⟨e, rfl⟩ : ∃ m, e = m + 1 := ⟨e - 1, by omega⟩
  simp

theorem adjacent_cons_tail {x : ℤ} {l m : List ℤ} (h : Adjacent l m) : Adjacent (x :: l) (x :: m) := by
  obtain ⟨h1, d, h2, h3, h4⟩ := h
  refine ⟨by simp [h1], d + 1, by simpa using h2, by simpa using h3, ?_⟩
  intro e he hne
  match e with
  | 0 => simp
  | e + 1 => simpa using h4 e (by simpa using he) (by omega)

theorem succ_nocarry {p d : ℤ} (hd : 0 < d) (h : p % d + 1 < d) : (p + 1) % d = p % d + 1 ∧ (p + 1) / d = p / d := by
  have h1 := Int.emod_nonneg p hd.ne'
  have h2 := Int.emod_add_mul_ediv p d
  have e : p + 1 = (p % d + 1) + d * (p / d) := by linarith
  constructor
  · rw [e, Int.add_mul_emod_self_left, Int.emod_eq_of_lt (by omega) (by omega)]
  · rw [e, Int.add_mul_ediv_left _ _ hd.ne', Int.ediv_eq_zero_of_lt (by omega) (by omega), zero_add]

theorem succ_carry {p d : ℤ} (hd : 0 < d) (h : ¬ p % d + 1 < d) :
    p % d = d - 1 ∧ (p + 1) % d = 0 ∧ (p + 1) / d = p / d + 1 := by
  have h1 := Int.emod_lt_of_pos p hd
  have h2 := Int.emod_add_mul_ediv p d
  have h3 : p % d = d - 1 := by omega
  have e : p + 1 = d * (p / d + 1) := by rw [h3] at h2; linarith
  refine ⟨h3, ?_, ?_⟩
  · rw [e, Int.mul_emod_right]
  · rw [e, Int.mul_ediv_cancel_left _ hd.ne']

/-- The two cases of `oddOf`: the successor flips the parity of the first digit, unless there is a carry. -/
theorem fold_adjacent {iv : Interval} (h : ∀ a ∈ iv, 0 < a.dim) (hs : Smooth iv) {p : ℤ} (h0 : 0 ≤ p) (hp : p + 1 < card iv) :
    Adjacent (fold iv (digits p iv)) (fold iv (digits (p + 1) iv)) := by
  induction iv generalizing p with
  | nil => simp only [card, List.map_nil, List.prod_nil] at hp; omega
  | cons a iv ih =>
    have ha := h a (by simp)
    have ht : ∀ b ∈ iv, 0 < b.dim := fun b hb => h b (by simp [hb])
    by_cases hc : p % a.dim + 1 < a.dim
    · obtain ⟨e1, e2⟩ := succ_nocarry ha hc
      simp only [digits, e1, e2, fold]
      apply adjacent_cons_head
      split_ifs <;> omega
    · obtain ⟨e1, e2, e3⟩ := succ_carry ha hc
      have hp' : p / a.dim + 1 < card iv := by rw [← e3]; exact div_lt_card ha hp
      have h0' : 0 ≤ p / a.dim := Int.ediv_nonneg h0 ha.le
      have hadj := ih ht hs.tail h0' hp'
      simp only [digits, e1, e2, e3, fold]
      suffices e : (if oddOf (digits (p / a.dim) iv) then a.dim - (a.dim - 1) - 1 + a.min else a.dim - 1 + a.min) =
          (if oddOf (digits (p / a.dim + 1) iv) then a.dim - 0 - 1 + a.min else 0 + a.min) by
        rw [e]; exact adjacent_cons_tail hadj
      match iv, ht, hp', hs with
      | [], _, hp', _ => simp only [card, List.map_nil, List.prod_nil] at hp'; omega
      | b :: iv, ht, hp', hs =>
        have hb := ht b (by simp)
        generalize p / a.dim = q at *
        by_cases hc' : q % b.dim + 1 < b.dim
        · obtain ⟨f1, f2⟩ := succ_nocarry hb hc'
          simp only [digits, f1, oddOf, decide_eq_true_eq]
          split_ifs <;> omega
        · obtain ⟨f1, f2, f3⟩ := succ_carry hb hc'
          simp only [digits, f1, f2, oddOf, decide_eq_true_eq]
          match iv, hp', hs with
          | [], hp', _ =>
            simp only [card, List.map_cons, List.map_nil, List.prod_cons, List.prod_nil, mul_one] at hp'
            have := Int.ediv_nonneg h0' hb.le
            have h5 := Int.emod_add_mul_ediv q b.dim
            have h6 : 0 ≤ b.dim * (q / b.dim) := mul_nonneg hb.le this
            omega
          | c :: iv, _, hs =>
            rcases hs.1 with h7 | h7
            · split_ifs <;> omega
            · split_ifs <;> omega

/-! ### Size and iteration -/

theorem sizeLoop_ok {iv : Interval} (h : Proper iv) (s : ℕ) (hs : (s : ℤ) * card iv ≤ 2147483647) :
    (sizeLoop s iv : ℤ) = s * card iv := by
  induction iv generalizing s with
  | nil => simp [sizeLoop, card]
  | cons a iv ih =>
    obtain ⟨ha, ha1, ha2, ha3⟩ := h a (by simp)
    have hd : (Cxx.toSize a.dim : ℤ) = a.dim := toSize_nat ha.le (by unfold I32 at *; omega)
    have hc := card_pos h.tail.pos
    rw [card_cons] at hs ⊢
    have hle : (s : ℤ) * a.dim ≤ 2147483647 := by
      have : (s : ℤ) * a.dim * 1 ≤ s * a.dim * card iv := mul_le_mul_of_nonneg_left (by omega) (by positivity)
      nlinarith
    have e : ((s * Cxx.toSize a.dim % 18446744073709551616 : ℕ) : ℤ) = s * a.dim := by
      push_cast
      rw [hd, Int.emod_eq_of_lt (by positivity) (by omega)]
    rw [sizeLoop, ih h.tail _ (by rw [e]; nlinarith), e]
    ring

theorem size_ok {iv : Interval} (h : Proper iv) (hc : card iv ≤ 2147483647) : (size iv : ℤ) = card iv := by
  unfold size
  rw [sizeLoop_ok h 1 (by push_cast; omega)]; simp

theorem empty_iff {iv : Interval} : empty iv = true ↔ ∃ a ∈ iv, a.dim ≤ 0 := by
  induction iv with
  | nil => simp [empty]
  | cons a iv ih =>
    simp only [empty]
    split_ifs with h
    · simp [h]
    · rw [ih]; simp [h]

theorem not_empty {iv : Interval} (h : ∀ a ∈ iv, 0 < a.dim) : empty iv = false := by
  rw [Bool.eq_false_iff, ne_eq, empty_iff]
  rintro ⟨a, ha, h'⟩
  have := h a ha; omega

theorem ofSize_small {n : ℕ} (h : (n : ℤ) ≤ 2147483647) : Cxx.ofSize n = n := by
  unfold Cxx.ofSize
  rw [Int.bmod_def]
  split_ifs <;> omega

theorem range_shift {α : Type} (g : ℕ → α) (p k : ℕ) :
    (List.range (k + 1)).map (fun j => g (p + j)) = g p :: (List.range k).map (fun j => g (p + 1 + j)) := by
  rw [List.range_succ_eq_map, List.map_cons, List.map_map, Nat.add_zero]
  refine congrArg _ (List.map_congr_left fun j _ => ?_)
  rw [Function.comp, Nat.succ_eq_add_one, Nat.add_right_comm, Nat.add_assoc]

theorem visitLoop_succ {ix : Interval → ℤ → Outcome (List ℤ)} {iv : Interval} {e it nx : Iter} {fuel : ℕ} {r : List (List ℤ)}
    (h : it.pos ≠ e.pos) (hn : it.next ix iv = .ok nx) (hr : visitLoop ix iv e fuel nx = .ok r) :
    visitLoop ix iv e (fuel + 1) it = .ok (it.indices :: r) := by
  rw [visitLoop, if_pos h, hn]
  show (visitLoop ix iv e fuel nx).bind _ = _
  rw [hr]; rfl

theorem next_ok {ix : Interval → ℤ → Outcome (List ℤ)} {iv : Interval} {it : Iter} {is : List ℤ}
    (h : Cxx.int (it.pos + 1) = .ok (it.pos + 1)) (hi : ix iv (it.pos + 1) = .ok is) :
    it.next ix iv = .ok ⟨it.pos + 1, is⟩ := by
  rw [Iter.next, h]
  show (ix iv (it.pos + 1)).bind _ = _
  rw [hi]; rfl

theorem visitLoop_ok {ix : Interval → ℤ → Outcome (List ℤ)} {iv : Interval} {f : ℤ → List ℤ} {N : ℕ}
    (hN : ∀ p : ℤ, 0 ≤ p → p < N → I32 (p + 1)) (hix : ∀ p : ℤ, 0 ≤ p → p ≤ N → ix iv p = .ok (f p)) :
    ∀ (k : ℕ) (p : ℕ) (e : Iter) (fuel : ℕ), e.pos = N → p + k = N → k < fuel →
      visitLoop ix iv e fuel ⟨p, f p⟩ = .ok ((List.range k).map fun j => f (p + j : ℕ)) := by
  intro k
  induction k with
  | zero =>
    intro p e fuel he hp hf
    obtain ⟨fuel, rfl⟩ : ∃ m, fuel = m + 1 := ⟨fuel - 1, by omega⟩
    unfold visitLoop
    rw [if_neg (by simp only [ne_eq, not_not]; omega)]
    rfl
  | succ k ih =>
    intro p e fuel he hp hf
    obtain ⟨fuel, rfl⟩ : ∃ m, fuel = m + 1 := ⟨fuel - 1, by omega⟩
    have hn : Iter.next ix iv ⟨p, f p⟩ = .ok ⟨((p + 1 : ℕ) : ℤ), f ((p + 1 : ℕ) : ℤ)⟩ := by
      rw [Nat.cast_add, Nat.cast_one]
      exact next_ok (int_ok (hN _ (by simp only; omega) (by simp only; omega))) (hix _ (by simp only; omega) (by simp only; omega))
    rw [range_shift (fun j => f (j : ℤ)) p k]
    exact visitLoop_succ (by simp only; omega) hn (ih (p + 1) e fuel he (by omega) (by omega))

theorem visit_ok {ix : Interval → ℤ → Outcome (List ℤ)} {iv : Interval} {f : ℤ → List ℤ} (h : Proper iv)
    (hc : card iv ≤ 2147483647) (hix : ∀ p : ℤ, 0 ≤ p → I32 p → ix iv p = .ok (f p)) (fuel : ℕ) (hf : card iv < fuel) :
    visit ix iv fuel = .ok ((List.range (card iv).toNat).map fun j => f (j : ℕ)) := by
  have hs := size_ok h hc
  have hpos := card_pos h.pos
  unfold visit begin «end» Iter.mk'
  rw [ofSize_small (by omega), hs]
  simp only [not_empty h.pos, Bool.not_false, if_true]
  rw [hix 0 (le_refl _) (by unfold I32; omega), hix (card iv) hpos.le (by unfold I32; omega)]
  simp only [bind, Except.bind, pure, Except.pure]
  have := visitLoop_ok (ix := ix) (iv := iv) (f := f) (N := (card iv).toNat) (fun p h0 hp => by unfold I32; omega)
    (fun p h0 hp => hix p h0 (by unfold I32; omega)) (card iv).toNat 0 ⟨card iv, f (card iv)⟩ fuel (by simp only; omega) (by omega) (by omega)
  simp only [Nat.zero_add] at this
  exact this

/-! ### Set semantics -/

theorem inside_ok {iv : Interval} (h : Repr iv) {is : List ℤ} (hl : is.length = iv.length) :
    ∃ b, inside iv is = .ok b ∧ (b = true ↔ Mem iv is) := by
  induction iv generalizing is with
  | nil =>
    have : is = [] := by simpa using hl
    subst this
    exact ⟨true, rfl, by simp [mem_nil]⟩
  | cons a iv ih =>
    match is, hl with
    | i :: is, hl =>
      obtain ⟨h1, h2, h3⟩ := h a (by simp)
      obtain ⟨b, hb, hb'⟩ := ih (fun c hc => h c (by simp [hc])) (is := is) (by simpa using hl)
      unfold inside
      by_cases hi : i < a.min
      · rw [if_pos hi]
        refine ⟨false, rfl, ?_⟩
        rw [mem_cons_cons]
        simp only [Bool.false_eq_true, false_iff]
        omega
      · rw [if_neg hi, int_ok h3]
        simp only [bind, Except.bind]
        by_cases hj : i ≥ a.min + a.dim
        · rw [if_pos hj]
          refine ⟨false, rfl, ?_⟩
          rw [mem_cons_cons]
          simp only [Bool.false_eq_true, false_iff]
          omega
        · rw [if_neg hj]
          refine ⟨b, hb, ?_⟩
          rw [hb', mem_cons_cons]
          constructor
          · intro h; exact ⟨by omega, h⟩
          · intro h; exact h.2

theorem exists_mem_iff {iv : Interval} : (∃ is, Mem iv is) ↔ ∀ a ∈ iv, 0 < a.dim := by
  constructor
  · rintro ⟨is, hm⟩
    induction iv generalizing is with
    | nil => simp
    | cons a iv ih =>
      obtain ⟨i, js, rfl, h1, h2⟩ := mem_cons.1 hm
      intro b hb
      rcases List.mem_cons.1 hb with rfl | hb
      · omega
      · exact ih js h2 b hb
  · intro h; exact ⟨_, cell_mem h 0⟩

theorem initMinMax_ok {ms xs : List ℤ} (hl : ms.length = xs.length)
    (h : List.Forall₂ (fun m x => I32 (x - m) ∧ I32 (x - m + 1)) ms xs) :
    initMinMax ms xs = .ok (List.zipWith (fun m x => ⟨m, x - m + 1⟩) ms xs) := by
  induction h with
  | nil => rfl
  | cons h1 _ ih =>
    unfold initMinMax
    rw [int_ok h1.1]
    simp only [bind, Except.bind]
    rw [int_ok h1.2]
    simp only
    rw [ih (by simpa using hl)]
    rfl

theorem initCentered_ok {cs ws : List ℤ}
    (h : List.Forall₂ (fun c w => I32 (c - w) ∧ I32 (2 * w) ∧ I32 (2 * w + 1)) cs ws) :
    initCentered cs ws = .ok (List.zipWith (fun c w => ⟨c - w, 2 * w + 1⟩) cs ws) := by
  induction h with
  | nil => rfl
  | cons h1 _ ih =>
    unfold initCentered
    rw [int_ok h1.1]
    simp only [bind, Except.bind]
    rw [int_ok h1.2.1]
    simp only
    rw [int_ok h1.2.2]
    simp only
    rw [ih]
    rfl

/-- The axis of the intersection before the truncation of negative dimensions. -/
def interAxis (a b : Axis) : Axis := ⟨Max.max a.min b.min, Min.min (a.min + a.dim) (b.min + b.dim) - 1 - Max.max a.min b.min + 1⟩

theorem intersectLoop_ok {iv jv : Interval} (hi : ∀ a ∈ iv, 0 < a.dim) (hj : ∀ a ∈ jv, 0 < a.dim) (h : Repr iv) (h' : Repr jv)
    (hl : iv.length = jv.length) :
    intersectLoop iv jv = .ok (List.zipWith (fun a b => Max.max a.min b.min) iv jv,
      List.zipWith (fun a b => Min.min (a.min + a.dim) (b.min + b.dim) - 1) iv jv) := by
  induction iv generalizing jv with
  | nil => match jv, hl with | [], _ => rfl
  | cons a iv ih =>
    match jv, hl with
    | b :: jv, hl =>
      obtain ⟨a1, a2, a3⟩ := h a (by simp)
      obtain ⟨b1, b2, b3⟩ := h' b (by simp)
      have := hi a (by simp)
      have := hj b (by simp)
      unfold intersectLoop
      rw [int_ok a3, int_ok b3]
      simp only [bind, Except.bind]
      rw [int_ok (z := Min.min (a.min + a.dim) (b.min + b.dim) - 1) (by unfold I32 at *; omega)]
      simp only
      rw [ih (fun c hc => hi c (by simp [hc])) (fun c hc => hj c (by simp [hc])) (fun c hc => h c (by simp [hc]))
        (fun c hc => h' c (by simp [hc])) (by simpa using hl)]
      rfl

/-- Truncation of a negative dimension. -/
def clip (a : Axis) : Axis := if a.dim < 0 then ⟨a.min, 0⟩ else a

theorem clip_mem {a : Axis} {i : ℤ} : ((clip a).min ≤ i ∧ i < (clip a).min + (clip a).dim) ↔ (a.min ≤ i ∧ i < a.min + a.dim) := by
  unfold clip; split_ifs <;> simp only <;> omega

theorem mem_inter {iv jv : Interval} (hl : iv.length = jv.length) (is : List ℤ) :
    Mem ((List.zipWith interAxis iv jv).map clip) is ↔ Mem iv is ∧ Mem jv is := by
  induction iv generalizing jv is with
  | nil =>
    match jv, hl with
    | [], _ => simp [mem_nil]
  | cons a iv ih =>
    match jv, hl with
    | b :: jv, hl =>
      match is with
      | [] => simp [mem_cons]
      | i :: is =>
        simp only [List.zipWith_cons_cons, List.map_cons]
        rw [mem_cons_cons, mem_cons_cons, mem_cons_cons, ih (by simpa using hl), clip_mem]
        simp only [interAxis]
        constructor
        · rintro ⟨h1, h2, h3⟩; exact ⟨⟨by omega, h2⟩, by omega, h3⟩
        · rintro ⟨⟨h1, h2⟩, h3, h4⟩; exact ⟨by omega, h2, h4⟩

theorem intersect_ok {iv jv : Interval} (hi : ∀ a ∈ iv, 0 < a.dim) (hj : ∀ a ∈ jv, 0 < a.dim) (h : Repr iv) (h' : Repr jv)
    (hl : iv.length = jv.length)
    (hd : List.Forall₂ (fun (a b : Axis) => -2147483648 ≤ Min.min (a.min + a.dim) (b.min + b.dim) - 1 - Max.max a.min b.min) iv jv) :
    intersect iv jv = .ok ((List.zipWith interAxis iv jv).map clip) := by
  unfold intersect
  rw [not_empty hi, not_empty hj, intersectLoop_ok hi hj h h' hl]
  simp only [Bool.false_eq_true, if_false, bind, Except.bind]
  rw [initMinMax_ok (by simp [hl])]
  · simp only [pure, Except.pure]
    congr 2
    clear hd h h' hi hj
    induction iv generalizing jv with
    | nil => simp
    | cons a iv ih =>
      match jv, hl with
      | b :: jv, hl =>
        simp only [List.zipWith_cons_cons]
        exact congrArg₂ _ rfl (ih (by simpa using hl))
  · clear hl
    induction hd with
    | nil => exact List.Forall₂.nil
    | @cons a b iv jv h1 _ ih =>
      obtain ⟨a1, a2, a3⟩ := h a (by simp)
      obtain ⟨b1, b2, b3⟩ := h' b (by simp)
      have := hi a (by simp)
      have := hj b (by simp)
      refine List.Forall₂.cons ⟨?_, ?_⟩ (ih (fun c hc => hi c (by simp [hc])) (fun c hc => hj c (by simp [hc]))
        (fun c hc => h c (by simp [hc])) (fun c hc => h' c (by simp [hc])))
      · simp only; unfold I32 at *; omega
      · simp only; unfold I32 at *; omega

/-! ### Sliding -/

theorem slide_ok {iv : Interval} (hp : ∀ a ∈ iv, 0 < a.dim) (h : Repr iv) {d : ℕ} (hd : d < iv.length) {k : ℤ}
    (hk : -iv[d].dim ≤ k ∧ k ≤ iv[d].dim) (hm : I32 (iv[d].min + k)) :
    ∃ s t, stacked iv d k = .ok s ∧ translate iv d k = .ok t ∧ ∀ x, Mem s x ↔ Mem t x ∧ ¬ Mem iv x := by
  induction iv generalizing d with
  | nil => simp at hd
  | cons a iv ih =>
    match d with
    | 0 =>
      simp only [List.getElem_cons_zero] at hk hm
      obtain ⟨a1, a2, a3⟩ := h a (by simp)
      have hpa := hp a (by simp)
      unfold stacked translate
      rw [int_ok hm]
      by_cases h0 : k ≥ 0
      · rw [if_pos h0, int_ok a3]
        refine ⟨_, _, rfl, rfl, ?_⟩
        rintro (_ | ⟨i, is⟩)
        · simp [mem_cons]
        · rw [mem_cons_cons, mem_cons_cons, mem_cons_cons]
          constructor
          · rintro ⟨h1, h2⟩; exact ⟨⟨by simp only at h1 ⊢; omega, h2⟩, by simp only at h1 ⊢; omega⟩
          · rintro ⟨⟨h1, h2⟩, h3⟩
            have : ¬ (a.min ≤ i ∧ i < a.min + a.dim) := fun h4 => h3 ⟨h4, h2⟩
            exact ⟨by simp only at h1 ⊢; omega, h2⟩
      · rw [if_neg h0, int_ok (z := -k) (by unfold I32 at *; omega)]
        refine ⟨_, _, rfl, rfl, ?_⟩
        rintro (_ | ⟨i, is⟩)
        · simp [mem_cons]
        · rw [mem_cons_cons, mem_cons_cons, mem_cons_cons]
          constructor
          · rintro ⟨h1, h2⟩; exact ⟨⟨by simp only at h1 ⊢; omega, h2⟩, by simp only at h1 ⊢; omega⟩
          · rintro ⟨⟨h1, h2⟩, h3⟩
            have : ¬ (a.min ≤ i ∧ i < a.min + a.dim) := fun h4 => h3 ⟨h4, h2⟩
            exact ⟨by simp only at h1 ⊢; omega, h2⟩
    | d + 1 =>
      simp only [List.getElem_cons_succ] at hk hm
      obtain ⟨s, t, hs, ht, hst⟩ := ih (fun c hc => hp c (by simp [hc])) (fun c hc => h c (by simp [hc]))
        (by simpa using hd) hk hm
      unfold stacked translate
      rw [hs, ht]
      refine ⟨_, _, rfl, rfl, ?_⟩
      rintro (_ | ⟨i, is⟩)
      · simp [mem_cons]
      · rw [mem_cons_cons, mem_cons_cons, mem_cons_cons, hst]
        tauto

/-! ### Empty intervals -/

theorem sizeLoop_zero (iv : Interval) : sizeLoop 0 iv = 0 := by
  induction iv with
  | nil => rfl
  | cons a iv ih => simp [sizeLoop, ih]

theorem size_empty {iv : Interval} (h : ∀ a ∈ iv, 0 ≤ a.dim) (he : ∃ a ∈ iv, a.dim ≤ 0) (s : ℕ) : sizeLoop s iv = 0 := by
  induction iv generalizing s with
  | nil => simp at he
  | cons a iv ih =>
    have ha := h a (by simp)
    by_cases h0 : a.dim = 0
    · simp [sizeLoop, h0, Cxx.toSize, sizeLoop_zero]
    · obtain ⟨b, hb, hb'⟩ := he
      rcases List.mem_cons.1 hb with rfl | hb
      · omega
      · exact ih (fun c hc => h c (by simp [hc])) ⟨b, hb, hb'⟩ _

end Verif.Interval
