import Verif.LabelSet.Lemmas
import Mathlib.Data.Finset.Dedup
import Mathlib.Data.Finset.Card
import Mathlib.Data.Finset.SDiff
import Mathlib.Data.Finset.Lattice.Basic

/-! Property theorems C29 and C30 (see properties.jsonl). The specification of a label set is a `Finset ℤ`. -/
namespace Verif.LabelSet
open Verif.SortedList

/-- The mathematical set of labels visited by the iteration. -/
def LabelSet.toFinset (a : LabelSet) : Finset ℤ := a.labels.toFinset

/-- The label sets a user can build with the public functions. -/
inductive Reachable : LabelSet → Prop
  | empty : Reachable empty
  | ofRange (l) : Reachable (ofRange l)
  | insert {a} (x) : Reachable a → Reachable (insert a x).2
  | remove {a} (x) : Reachable a → Reachable (remove a x)
  | unionLabel {a} (x) : Reachable a → Reachable (unionLabel a x)
  | union {a b} : Reachable a → Reachable b → Reachable (union a b)
  | intersection {a b} : Reachable a → Reachable b → Reachable (intersection a b)
  | differenceLabel {a} (x) : Reachable a → Reachable (differenceLabel a x)
  | difference {a b} : Reachable a → Reachable b → Reachable (difference a b)

theorem sorted_insert' {a : LabelSet} (h : Sorted a.labels) (x : ℤ) : Sorted (insert a x).2.labels := by
  unfold insert
  simp only
  split_ifs
  · exact sorted_insert h
  · exact h

theorem Reachable.sorted {a : LabelSet} (h : Reachable a) : Sorted a.labels := by
  induction h with
  | empty => exact List.Pairwise.nil
  | ofRange l => exact sorted_insertRange List.Pairwise.nil
  | insert x _ ih => exact sorted_insert' ih x
  | remove x _ ih => exact sorted_erase ih
  | unionLabel x _ ih => exact sorted_insert' ih x
  | union _ _ ih1 ih2 => exact sorted_insertRange ih1
  | intersection _ _ ih1 ih2 => exact sorted_insertRange List.Pairwise.nil
  | differenceLabel x _ ih => exact sorted_erase ih
  | difference _ _ ih1 ih2 => exact sorted_insertRange List.Pairwise.nil

/-- C29: all the operations of a label set compute the mathematical operation on sets; iteration is strictly increasing.
(The functions of the model do not modify their operands, as the `const` functions of the class.) -/
theorem C29_algebra (a b : LabelSet) (ha : Reachable a) (hb : Reachable b) (x : ℤ) (l : List ℤ) :
    a.labels.Pairwise (· < ·) ∧
    empty.toFinset = ∅ ∧
    (ofRange l).toFinset = l.toFinset ∧
    size a = a.toFinset.card ∧
    (isEmpty a = true ↔ a.toFinset = ∅) ∧
    (inside a x = true ↔ x ∈ a.toFinset) ∧
    ((insert a x).1 = true ↔ x ∈ a.toFinset) ∧
    (insert a x).2.toFinset = a.toFinset ∪ {x} ∧
    (remove a x).toFinset = a.toFinset \ {x} ∧
    (unionLabel a x).toFinset = a.toFinset ∪ {x} ∧
    (union a b).toFinset = a.toFinset ∪ b.toFinset ∧
    (intersection a b).toFinset = a.toFinset ∩ b.toFinset ∧
    (differenceLabel a x).toFinset = a.toFinset \ {x} ∧
    (difference a b).toFinset = a.toFinset \ b.toFinset := by
  have sa := ha.sorted
  have sb := hb.sorted
  have hins : (insert a x).2.toFinset = a.toFinset ∪ {x} := by
    ext z
    unfold insert LabelSet.toFinset inside
    simp only
    by_cases hc : contains x a.labels = true
    · rw [hc]
      have := (contains_iff sa).1 hc
      simp only [Bool.not_true, Bool.false_eq_true, if_false, List.mem_toFinset, Finset.mem_union, Finset.mem_singleton]
      constructor
      · exact Or.inl
      · rintro (h | rfl)
        · exact h
        · exact this
    · simp only [Bool.not_eq_true] at hc
      rw [hc]
      simp only [Bool.not_false, if_true, List.mem_toFinset, Finset.mem_union, Finset.mem_singleton, mem_insert]
      tauto
  have hrem : (remove a x).toFinset = a.toFinset \ {x} := by
    ext z
    simp only [remove, LabelSet.toFinset, List.mem_toFinset, Finset.mem_sdiff, Finset.mem_singleton, mem_erase sa]
  refine ⟨sa, rfl, ?_, ?_, ?_, ?_, ?_, hins, hrem, hins, ?_, ?_, hrem, ?_⟩
  · ext z; simp [LabelSet.toFinset, ofRange, mem_insertRange]
  · unfold size LabelSet.toFinset
    rw [List.toFinset_card_of_nodup]
    exact List.Pairwise.imp (fun h => by omega) sa
  · unfold isEmpty LabelSet.toFinset
    rw [List.isEmpty_iff, List.toFinset_eq_empty_iff]
  · simp [inside, LabelSet.toFinset, contains_iff sa]
  · simp [insert, inside, LabelSet.toFinset, contains_iff sa]
  · ext z
    simp only [union, LabelSet.toFinset, List.mem_toFinset, Finset.mem_union, mem_insertRange, mem_setUnion]
    tauto
  · ext z
    simp only [intersection, ofRange, LabelSet.toFinset, List.mem_toFinset, Finset.mem_inter, mem_insertRange,
      mem_setIntersection _ _ sa sb, List.not_mem_nil, false_or]
  · ext z
    simp only [difference, ofRange, LabelSet.toFinset, List.mem_toFinset, Finset.mem_sdiff, mem_insertRange,
      mem_setDifference _ _ sa sb, List.not_mem_nil, false_or]

example : (union (ofRange [3, 1]) (ofRange [2, 3])).labels = [1, 2, 3] ∧
    (intersection (ofRange [3, 1]) (ofRange [2, 3])).labels = [3] ∧
    (difference (ofRange [3, 1]) (ofRange [2, 3])).labels = [1] ∧ (insert (ofRange [3, 1]) 3).1 = true := by decide +kernel

/-! ### C30: equality -/

/-- C30, full statement. -/
def C30_statement : Prop :=
  ∀ a b : LabelSet, Reachable a → Reachable b →
    eq a b = .ok (decide (a.toFinset = b.toFinset)) ∧ ne a b = .ok (decide (a.toFinset ≠ b.toFinset))

theorem equal3_spec (l1 l2 : List ℤ) :
    (equal3 l1 l2 = .ok true ↔ l1 <+: l2) ∧
    (equal3 l1 l2 = .error (.ub .outOfBounds) ↔ l2 <+: l1 ∧ l2.length < l1.length) ∧
    (equal3 l1 l2 = .ok true ∨ equal3 l1 l2 = .ok false ∨ equal3 l1 l2 = .error (.ub .outOfBounds)) := by
  induction l1 generalizing l2 with
  | nil => simp [equal3]
  | cons x l1 ih =>
    cases l2 with
    | nil => simp [equal3]
    | cons y l2 =>
      obtain ⟨h1, h2, h3⟩ := ih l2
      unfold equal3
      by_cases hxy : x = y
      · subst hxy
        rw [if_pos rfl]
        refine ⟨?_, ?_, h3⟩
        · rw [h1, List.cons_prefix_cons]; simp
        · rw [h2, List.cons_prefix_cons]; simp
      · rw [if_neg hxy]
        have hyx : ¬ y = x := fun h => hxy h.symm
        simp [hxy, hyx, List.cons_prefix_cons]

/-- What `==` decides: `a == b` is true iff the labels of `a` are the smallest labels of `b` (a prefix of the iteration);
it is undefined iff the labels of `b` are a strict prefix of those of `a`. In particular it is right when the sizes agree.
Missing: operands of different sizes (`C30_equality_violated`). -/
theorem C30_equality_partial (a b : LabelSet) (ha : Reachable a) (hb : Reachable b) :
    (eq a b = .ok true ↔ a.labels <+: b.labels) ∧
    (eq a b = .error (.ub .outOfBounds) ↔ b.labels <+: a.labels ∧ size b < size a) ∧
    (size a = size b →
      eq a b = .ok (decide (a.toFinset = b.toFinset)) ∧ ne a b = .ok (decide (a.toFinset ≠ b.toFinset))) := by
  obtain ⟨h1, h2, h3⟩ := equal3_spec a.labels b.labels
  refine ⟨h1, h2, fun hsz => ?_⟩
  have hiff : a.labels <+: b.labels ↔ a.toFinset = b.toFinset := by
    constructor
    · intro h
      have := h.eq_of_length hsz
      unfold LabelSet.toFinset; rw [this]
    · intro h
      have : a.labels = b.labels := sorted_ext ha.sorted hb.sorted (fun z => by
        have := congrArg (fun s => z ∈ s) h
        simpa [LabelSet.toFinset] using this)
      rw [this]
  unfold eq ne
  by_cases hc : a.toFinset = b.toFinset
  · have := h1.2 (hiff.2 hc)
    simp [this, hc, bind, Except.bind, pure, Except.pure]
  · have hf : equal3 a.labels b.labels = .ok false := by
      rcases h3 with h | h | h
      · exact absurd (hiff.1 (h1.1 h)) hc
      · exact h
      · have := (h2.1 h).2
        unfold size at hsz; omega
    simp [hf, hc, bind, Except.bind, pure, Except.pure]

/-- C30 is false for the code: `{} == {1}` is true, and `{1,2} == {1}` dereferences the end iterator. -/
theorem C30_equality_violated : ¬ C30_statement ∧
    eq empty (ofRange [1]) = .ok true ∧ ne empty (ofRange [1]) = .ok false ∧
    eq (ofRange [1, 2]) (ofRange [1]) = .error (.ub .outOfBounds) := by
  refine ⟨fun h => ?_, by decide, by decide, by decide⟩
  have := (h empty (ofRange [1]) .empty (.ofRange _)).1
  revert this; decide

end Verif.LabelSet
