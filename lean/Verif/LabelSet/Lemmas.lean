import Verif.LabelSet.Model
import Mathlib.Data.List.Basic
import Mathlib.Data.Int.Notation
import Mathlib.Order.Basic
import Mathlib.Tactic.Push

namespace Verif.SortedList

/-- Strictly increasing. -/
abbrev Sorted (l : List ℤ) : Prop := l.Pairwise (· < ·)

theorem contains_iff {x : ℤ} {l : List ℤ} (h : Sorted l) : contains x l = true ↔ x ∈ l := by
  induction l with
  | nil => simp [contains]
  | cons y l ih =>
    replace h := List.pairwise_cons.1 h
    simp only [contains, List.mem_cons]
    split_ifs with h1 h2
    · simp only [Bool.false_eq_true, false_iff, not_or]
      refine ⟨by omega, fun hm => ?_⟩
      have := h.1 x hm; omega
    · rw [ih h.2]
      constructor
      · exact Or.inr
      · rintro (rfl | h3)
        · omega
        · exact h3
    · simp only [true_iff]; left; omega

theorem mem_insert {x z : ℤ} (l : List ℤ) : z ∈ insert x l ↔ z = x ∨ z ∈ l := by
  induction l with
  | nil => simp [insert]
  | cons y l ih =>
    simp only [insert]
    split_ifs with h1 h2
    · simp
    · simp only [List.mem_cons, ih]; tauto
    · have : x = y := by omega
      subst this; simp

theorem sorted_insert {x : ℤ} {l : List ℤ} (h : Sorted l) : Sorted (insert x l) := by
  induction l with
  | nil => simp [insert, Sorted]
  | cons y l ih =>
    have h' := List.pairwise_cons.1 h
    simp only [insert]
    split_ifs with h1 h2
    · refine List.pairwise_cons.2 ⟨fun z hz => ?_, h⟩
      rcases List.mem_cons.1 hz with rfl | hz
      · exact h1
      · have := h'.1 z hz; omega
    · refine List.pairwise_cons.2 ⟨fun z hz => ?_, ih h'.2⟩
      rcases (mem_insert l).1 hz with rfl | hz
      · exact h2
      · exact h'.1 z hz
    · exact h

theorem mem_erase {x z : ℤ} {l : List ℤ} (h : Sorted l) : z ∈ erase x l ↔ z ∈ l ∧ z ≠ x := by
  induction l with
  | nil => simp [erase]
  | cons y l ih =>
    replace h := List.pairwise_cons.1 h
    simp only [erase]
    split_ifs with h1 h2
    · simp only [List.mem_cons]
      constructor
      · intro hz
        refine ⟨hz, ?_⟩
        rcases hz with rfl | hz
        · omega
        · have := h.1 z hz; omega
      · exact fun hz => hz.1
    · simp only [List.mem_cons, ih h.2]
      constructor
      · rintro (rfl | h3)
        · exact ⟨Or.inl rfl, by omega⟩
        · exact ⟨Or.inr h3.1, h3.2⟩
      · rintro ⟨rfl | h3, h4⟩
        · exact Or.inl rfl
        · exact Or.inr ⟨h3, h4⟩
    · have : x = y := by omega
      subst this
      simp only [List.mem_cons]
      constructor
      · intro hz
        have := h.1 z hz
        exact ⟨Or.inr hz, by omega⟩
      · rintro ⟨rfl | h3, h4⟩
        · exact absurd rfl h4
        · exact h3

theorem sorted_erase {x : ℤ} {l : List ℤ} (h : Sorted l) : Sorted (erase x l) := by
  induction l with
  | nil => simp [erase]
  | cons y l ih =>
    have h' := List.pairwise_cons.1 h
    simp only [erase]
    split_ifs with h1 h2
    · exact h
    · refine List.pairwise_cons.2 ⟨fun z hz => ?_, ih h'.2⟩
      exact h'.1 z ((mem_erase h'.2).1 hz).1
    · exact h'.2

theorem mem_insertRange {z : ℤ} (l s : List ℤ) : z ∈ insertRange s l ↔ z ∈ s ∨ z ∈ l := by
  induction l generalizing s with
  | nil => simp [insertRange]
  | cons y l ih =>
    have := ih (insert y s)
    simp only [insertRange, List.foldl_cons] at this ⊢
    rw [this, mem_insert]
    simp only [List.mem_cons]; tauto

theorem sorted_insertRange {l s : List ℤ} (h : Sorted s) : Sorted (insertRange s l) := by
  induction l generalizing s with
  | nil => exact h
  | cons y l ih => exact ih (sorted_insert h)

theorem mem_setUnion {z : ℤ} (l1 l2 : List ℤ) : z ∈ setUnion l1 l2 ↔ z ∈ l1 ∨ z ∈ l2 := by
  fun_induction setUnion l1 l2 with
  | case1 => simp
  | case2 => simp
  | case3 x l1 y l2 h ih => simp only [List.mem_cons, ih]; tauto
  | case4 x l1 y l2 h1 h2 ih => simp only [List.mem_cons, ih]; tauto
  | case5 x l1 y l2 h1 h2 ih =>
    have : x = y := by omega
    subst this
    simp only [List.mem_cons, ih]; tauto

theorem mem_setIntersection {z : ℤ} (l1 l2 : List ℤ) (s1 : Sorted l1) (s2 : Sorted l2) :
    z ∈ setIntersection l1 l2 ↔ z ∈ l1 ∧ z ∈ l2 := by
  fun_induction setIntersection l1 l2 with
  | case1 => simp
  | case2 => simp
  | case3 x l1 y l2 h ih =>
    have h1 := List.pairwise_cons.1 s1
    have h2 := List.pairwise_cons.1 s2
    rw [ih h1.2 s2]
    simp only [List.mem_cons]
    constructor
    · rintro ⟨h3, h4⟩; exact ⟨Or.inr h3, h4⟩
    · rintro ⟨rfl | h3, h4⟩
      · rcases h4 with h5 | h5
        · omega
        · have := h2.1 z h5; omega
      · exact ⟨h3, h4⟩
  | case4 x l1 y l2 h h' ih =>
    have h1 := List.pairwise_cons.1 s1
    have h2 := List.pairwise_cons.1 s2
    rw [ih s1 h2.2]
    simp only [List.mem_cons]
    constructor
    · rintro ⟨h3, h4⟩; exact ⟨h3, Or.inr h4⟩
    · rintro ⟨h3, rfl | h4⟩
      · rcases h3 with h5 | h5
        · omega
        · have := h1.1 z h5; omega
      · exact ⟨h3, h4⟩
  | case5 x l1 y l2 h h' ih =>
    have h1 := List.pairwise_cons.1 s1
    have h2 := List.pairwise_cons.1 s2
    have : x = y := by omega
    subst this
    simp only [List.mem_cons, ih h1.2 h2.2]
    constructor
    · rintro (h3 | h3)
      · exact ⟨Or.inl h3, Or.inl h3⟩
      · exact ⟨Or.inr h3.1, Or.inr h3.2⟩
    · rintro ⟨h3 | h3, h4 | h4⟩
      · exact Or.inl h3
      · exact Or.inl h3
      · exact Or.inl h4
      · exact Or.inr ⟨h3, h4⟩

theorem mem_setDifference {z : ℤ} (l1 l2 : List ℤ) (s1 : Sorted l1) (s2 : Sorted l2) :
    z ∈ setDifference l1 l2 ↔ z ∈ l1 ∧ z ∉ l2 := by
  fun_induction setDifference l1 l2 with
  | case1 => simp
  | case2 => simp
  | case3 x l1 y l2 h ih =>
    have h1 := List.pairwise_cons.1 s1
    have h2 := List.pairwise_cons.1 s2
    simp only [List.mem_cons, ih h1.2 s2]
    constructor
    · rintro (rfl | ⟨h3, h4⟩)
      · refine ⟨Or.inl rfl, ?_⟩
        rintro (h5 | h5)
        · omega
        · have := h2.1 z h5; omega
      · exact ⟨Or.inr h3, h4⟩
    · rintro ⟨rfl | h3, h4⟩
      · exact Or.inl rfl
      · exact Or.inr ⟨h3, h4⟩
  | case4 x l1 y l2 h h' ih =>
    have h1 := List.pairwise_cons.1 s1
    have h2 := List.pairwise_cons.1 s2
    rw [ih s1 h2.2]
    simp only [List.mem_cons, not_or]
    constructor
    · rintro ⟨h3, h4⟩
      refine ⟨h3, ?_, h4⟩
      rcases h3 with h5 | h5
      · omega
      · have := h1.1 z h5; omega
    · rintro ⟨h3, -, h4⟩; exact ⟨h3, h4⟩
  | case5 x l1 y l2 h h' ih =>
    have h1 := List.pairwise_cons.1 s1
    have h2 := List.pairwise_cons.1 s2
    have : x = y := by omega
    subst this
    rw [ih h1.2 h2.2]
    simp only [List.mem_cons, not_or]
    constructor
    · rintro ⟨h3, h4⟩
      have := h1.1 z h3
      exact ⟨Or.inr h3, by omega, h4⟩
    · rintro ⟨h3 | h3, h4, h5⟩
      · omega
      · exact ⟨h3, h5⟩

theorem sorted_ext {l1 l2 : List ℤ} (s1 : Sorted l1) (s2 : Sorted l2) (h : ∀ z, z ∈ l1 ↔ z ∈ l2) : l1 = l2 := by
  induction l1 generalizing l2 with
  | nil =>
    cases l2 with
    | nil => rfl
    | cons y l2 => exact absurd ((h y).2 (by simp)) (by simp)
  | cons x l1 ih =>
    cases l2 with
    | nil => exact absurd ((h x).1 (by simp)) (by simp)
    | cons y l2 =>
      have h1 := List.pairwise_cons.1 s1
      have h2 := List.pairwise_cons.1 s2
      have hxy : x = y := by
        have hx := (h x).1 (by simp)
        have hy := (h y).2 (by simp)
        rcases List.mem_cons.1 hx with hx | hx
        · exact hx
        · rcases List.mem_cons.1 hy with hy | hy
          · exact hy.symm
          · have := h1.1 y hy
            have := h2.1 x hx
            omega
      subst hxy
      congr 1
      apply ih h1.2 h2.2
      intro z
      constructor
      · intro hz
        have := (h z).1 (List.mem_cons_of_mem _ hz)
        rcases List.mem_cons.1 this with h3 | h3
        · have := h1.1 z hz; omega
        · exact h3
      · intro hz
        have := (h z).2 (List.mem_cons_of_mem _ hz)
        rcases List.mem_cons.1 this with h3 | h3
        · have := h2.1 z hz; omega
        · exact h3

end Verif.SortedList
